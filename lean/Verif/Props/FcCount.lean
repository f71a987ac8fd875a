import Verif.Model.FcCount
/-!
C155: the credits counted are the credits of the TLPs passed on.
-/
namespace Corundum.FcCount

/-- types of TLPs in the PCI Express specification, with their format and type: reads and writes of memory, I/O and configuration space, messages (with
their routing) with and without data, completions, atomic operations -/
inductive Kind
  | memRead (is64 locked : Bool)
  | memWrite (is64 : Bool)
  | io (wr : Bool)
  | cfg (wr type1 : Bool)
  | msg (data : Bool) (route : Fin 6)
  | cpl (data locked : Bool)
  | atomic (is64 : Bool) (op : Fin 3)
deriving DecidableEq, Repr

/-- format (3 bits) and type (5 bits): bit 0 of the format is set for four header words, bit 1 for data -/
def Kind.code : Kind → Nat
  | memRead q l => 32 * q.toNat + l.toNat
  | memWrite q => 64 + 32 * q.toNat
  | io w => 64 * w.toNat + 2
  | cfg w t => 64 * w.toNat + 4 + t.toNat
  | msg d r => 64 * d.toNat + 32 + 16 + r.val
  | cpl d l => 64 * d.toNat + 10 + l.toNat
  | atomic q o => 64 + 32 * q.toNat + 12 + o.val

/-- memory writes and messages are posted -/
def Kind.fc : Kind → Fc
  | memWrite _ | msg _ _ => .p
  | cpl _ _ => .cpl
  | _ => .np

def Kind.hasData : Kind → Bool
  | memWrite _ | atomic _ _ => true
  | io w | cfg w _ => w
  | msg d _ | cpl d _ => d
  | memRead _ _ => false

/-- a TLP: its kind and its length in words -/
structure Tlp where
  kind : Kind
  len : Nat

/-- data credits: one for four words or part of it -/
def Tlp.data (t : Tlp) : Nat := if t.kind.hasData then (t.len + 3) / 4 else 0

/-- a segment begins the TLP: 1024 words are written as 0 -/
def Begins (g : Seg) (t : Tlp) : Prop :=
  g.fmtType.toNat = t.kind.code ∧ 0 < t.len ∧ t.len ≤ 1024 ∧ g.len.toNat = t.len % 1024

/-- `segs` begin the TLPs `ts`, in that order -/
inductive Starts : List Seg → List Tlp → Prop
  | nil : Starts [] []
  | skip (g : Seg) (gs : List Seg) (ts : List Tlp) : (g.sop && g.valid) = false → Starts gs ts → Starts (g :: gs) ts
  | tlp (g : Seg) (gs : List Seg) (t : Tlp) (ts : List Tlp) : (g.sop && g.valid) = true → Begins g t → Starts gs ts →
      Starts (g :: gs) (t :: ts)

def heads (f : Fc) (ts : List Tlp) : Nat := (ts.filter fun t => t.kind.fc = f).length
def words (f : Fc) (ts : List Tlp) : Nat := ((ts.filter fun t => t.kind.fc = f).map Tlp.data).sum

def St.get (s : St) : Fc → Cnt
  | .p => s.p
  | .np => s.np
  | .cpl => s.cpl

theorem code_fc (k : Kind) (x : BitVec 8) (h : x.toNat = k.code) : fcType x = some k.fc ∧ x.getLsbD 6 = k.hasData := by
  have hx : x = BitVec.ofNat 8 k.code := by rw [← h]; simp
  subst hx
  cases k with
  | memRead q l => cases q <;> cases l <;> decide
  | memWrite q => cases q <;> decide
  | io w => cases w <;> decide
  | cfg w t => cases w <;> cases t <;> decide
  | msg d r => revert r; cases d <;> decide
  | cpl d l => cases d <;> cases l <;> decide
  | atomic q o => revert o; cases q <;> decide

theorem data_ok (g : Seg) (t : Tlp) (h : Begins g t) (hl : t.kind.hasData = true → t.len ≤ 512) : segData g = t.data := by
  obtain ⟨h1, h2, h3, h4⟩ := h
  have hc := (code_fc t.kind g.fmtType h1).2
  unfold segData Tlp.data
  rw [hc, h4]
  cases hd : t.kind.hasData
  · simp
  · have := hl hd
    simp only [if_true]
    split <;> omega

theorem fold_spec (f : Fc) : ∀ (segs : List Seg) (ts : List Tlp) (s : St), Starts segs ts →
    (∀ t ∈ ts, t.kind.hasData = true → t.len ≤ 512) →
    (segs.foldl (seg true) s).get f = ⟨(s.get f).h + BitVec.ofNat 4 (heads f ts), (s.get f).d + BitVec.ofNat 9 (words f ts)⟩ := by
  intro segs ts s hs hl
  induction hs generalizing s with
  | nil => simp [heads, words]
  | skip g gs ts hg _ ih =>
    rw [List.foldl_cons, show seg true s g = s by simp only [seg, Bool.and_true, hg, Bool.false_eq_true, if_false]]
    exact ih s hl
  | tlp g gs t ts hg hb _ ih =>
    have hd := data_ok g t hb (hl t (List.mem_cons_self ..))
    have hc := (code_fc t.kind g.fmtType hb.1).1
    rw [List.foldl_cons, ih _ (fun x hx => hl x (List.mem_cons_of_mem _ hx))]
    have e : seg true s g = match t.kind.fc with
        | .p => { s with p := s.p.add t.data }
        | .np => { s with np := s.np.add t.data }
        | .cpl => { s with cpl := s.cpl.add t.data } := by
      simp only [seg, Bool.and_true, hg, if_true, hc, hd]
      cases t.kind.fc <;> rfl
    rw [e]
    by_cases hf : t.kind.fc = f
    · have h1 : heads f (t :: ts) = 1 + heads f ts := by simp [heads, hf]; omega
      have h2 : words f (t :: ts) = t.data + words f ts := by simp [words, hf]
      rw [h1, h2]
      subst hf
      cases t.kind.fc <;> simp [St.get, Cnt.add, BitVec.ofNat_add, BitVec.add_assoc]
    · have h1 : heads f (t :: ts) = heads f ts := by simp [heads, hf]
      have h2 : words f (t :: ts) = words f ts := by simp [words, hf]
      rw [h1, h2]
      cases hk : t.kind.fc <;> cases f <;> first | rfl | exact absurd hk hf

/-- C155. For any number of TLPs that begin in a cycle, of any types and routings, none with more than 512 words of data: the counts of the cycle
are the numbers of headers and of data credits of each type, up to 15 TLPs and 511 credits. -/
theorem C155_counts (segs : List Seg) (ts : List Tlp) (hs : Starts segs ts) (hl : ∀ t ∈ ts, t.kind.hasData = true → t.len ≤ 512) (f : Fc)
    (hh : heads f ts < 16) (hw : words f ts < 512) :
    ((step true segs).get f).h.toNat = heads f ts ∧ ((step true segs).get f).d.toNat = words f ts := by
  have h := fold_spec f segs ts {} hs hl
  have h0 : (({} : St).get f) = {} := by cases f <;> rfl
  rw [h0] at h
  unfold step
  rw [h]
  simp
  omega

/-- C155. With up to three segments in a cycle the limits of the counters are never reached. -/
theorem C155_three (segs : List Seg) (ts : List Tlp) (hs : Starts segs ts) (hl : ∀ t ∈ ts, t.kind.hasData = true → t.len ≤ 512) (f : Fc)
    (hn : segs.length ≤ 3) :
    ((step true segs).get f).h.toNat = heads f ts ∧ ((step true segs).get f).d.toNat = words f ts := by
  have hlen : ts.length ≤ segs.length := by
    clear hl hn
    induction hs with
    | nil => exact Nat.le_refl _
    | skip _ _ _ _ _ ih => simp only [List.length_cons]; omega
    | tlp _ _ _ _ _ _ _ ih => simp only [List.length_cons]; omega
  have hh : heads f ts ≤ ts.length := List.length_filter_le _ _
  have hw : ∀ ts : List Tlp, (∀ t ∈ ts, t.kind.hasData = true → t.len ≤ 512) → words f ts ≤ 128 * ts.length := by
    intro ts
    induction ts with
    | nil => exact fun _ => Nat.le_refl _
    | cons t ts ih =>
      intro h
      have k := ih (fun x hx => h x (List.mem_cons_of_mem _ hx))
      have kd : t.data ≤ 128 := by
        unfold Tlp.data
        split
        · rename_i hd
          have := h t (List.mem_cons_self ..) hd
          omega
        · omega
      by_cases hf : t.kind.fc = f
      · have : words f (t :: ts) = t.data + words f ts := by simp [words, hf]
        simp only [List.length_cons]
        omega
      · have : words f (t :: ts) = words f ts := by simp [words, hf]
        simp only [List.length_cons]
        omega
  have := hw ts hl
  exact C155_counts segs ts hs hl f (by omega) (by omega)

/-- C155. Without ready nothing is counted. -/
theorem C155_not_ready (segs : List Seg) (f : Fc) : (step false segs).get f = {} := by
  have : ∀ (segs : List Seg) (s : St), segs.foldl (seg false) s = s := by
    intro segs
    induction segs with
    | nil => exact fun _ => rfl
    | cons g gs ih => intro s; rw [List.foldl_cons, ih]; simp [seg]
  rw [step, this]
  cases f <;> rfl

/-- C155. Beyond 512 words the data credits are wrong: a memory write of 1024 words counts as 128 credits instead of 256, one of 516 words as
one credit instead of 129. -/
theorem C155_long_counterexample :
    (step true [⟨true, true, 0b01000000, 0⟩]).p.d = 128 ∧ (Tlp.data ⟨.memWrite false, 1024⟩) = 256 ∧
      Begins ⟨true, true, 0b01000000, 0⟩ ⟨.memWrite false, 1024⟩ ∧
      (step true [⟨true, true, 0b01000000, 516⟩]).p.d = 1 ∧ (Tlp.data ⟨.memWrite false, 516⟩) = 129 ∧
      Begins ⟨true, true, 0b01000000, 516⟩ ⟨.memWrite false, 516⟩ := by
  refine ⟨by decide, by decide, ⟨by decide, by decide, by decide, by decide⟩, by decide, by decide, ⟨by decide, by decide, by decide, by decide⟩⟩

/-- a case: a write of five words, a completion with data and a read begin in one cycle, with a segment in between -/
example : Starts [⟨true, true, 0b01100000, 5⟩, ⟨false, true, 0, 0⟩, ⟨true, true, 0b01001010, 512⟩, ⟨true, true, 0, 7⟩]
      [⟨.memWrite true, 5⟩, ⟨.cpl true false, 512⟩, ⟨.memRead false false, 7⟩] ∧
    step true [⟨true, true, 0b01100000, 5⟩, ⟨false, true, 0, 0⟩, ⟨true, true, 0b01001010, 512⟩, ⟨true, true, 0, 7⟩] =
      ⟨⟨1, 2⟩, ⟨1, 0⟩, ⟨1, 128⟩⟩ := by
  refine ⟨.tlp _ _ _ _ rfl ⟨by decide, by decide, by decide, by decide⟩ (.skip _ _ _ rfl
    (.tlp _ _ _ _ rfl ⟨by decide, by decide, by decide, by decide⟩ (.tlp _ _ _ _ rfl ⟨by decide, by decide, by decide, by decide⟩ .nil))), by decide⟩

end Corundum.FcCount
