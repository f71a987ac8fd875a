import Verif.Spec.Cobs
import Verif.Props.AxisRegister
/-!
Encoder: the clocked model sends what the specification says.
-/
namespace Corundum.Cobs
open Corundum.AxisRegister (Skid)

/-! ### untimed view of the encoder -/

/-- codes still to be written by FINAL_ZERO / APPEND_ZERO -/
def closing (az : Bool) (s : EIn) : List Beat :=
  match s.st with
  | .finalZero => if az then [⟨if s.fail then 2 else 1, false, s.fail⟩, ⟨0, true, s.fail⟩] else [⟨if s.fail then 2 else 1, true, s.fail⟩]
  | .appendZero => [⟨0, true, s.fail⟩]
  | _ => []

def closed (s : EIn) : EIn :=
  match s.st with
  | .finalZero => ⟨.idle, s.count, false⟩
  | .appendZero => ⟨.idle, s.count, false⟩
  | _ => s

abbrev UEnc := EIn × List Beat × List Beat

def feed (az : Bool) (u : UEnc) (b : Beat) : UEnc :=
  let r := encByte az u.1 b
  (closed r.1, u.2.1 ++ (r.2.1 ++ closing az r.1), u.2.2 ++ r.2.2)

mutual
/-- the output side: codes, each followed by its data -/
def mergeCodes : List Beat → List Beat → List Beat
  | [], _ => []
  | c :: cs, ds => codeOut c :: (ds.take (follow c)).map dataOut ++ (if ds.length < follow c then [] else mergeCodes cs (ds.drop (follow c)))
end

def mergeFrom (n : Nat) (cs ds : List Beat) : List Beat := (ds.take n).map dataOut ++ (if ds.length < n then [] else mergeCodes cs (ds.drop n))

theorem mergeFrom_zero (cs ds : List Beat) : mergeFrom 0 cs ds = mergeCodes cs ds := by simp [mergeFrom]

theorem mergeFrom_code (c : Beat) (cs ds : List Beat) : mergeFrom 0 (c :: cs) ds = codeOut c :: mergeFrom (follow c) cs ds := by
  rw [mergeFrom_zero, mergeCodes]; rfl

theorem mergeFrom_data (n : Nat) (d : Beat) (cs ds : List Beat) : mergeFrom (n + 1) cs (d :: ds) = dataOut d :: mergeFrom n cs ds := by
  simp [mergeFrom]

theorem merge_block (c : Beat) (cs rb rest : List Beat) (h : follow c = rb.length) :
    mergeCodes (c :: cs) (rb ++ rest) = codeOut c :: rb.map dataOut ++ mergeCodes cs rest := by
  rw [mergeCodes, h]
  simp
  intro h; omega

/-! ### frames -/

theorem follow_plain (n : Nat) : follow ⟨n + 1, false, false⟩ = n := by
  unfold follow
  split
  · next h => simp at h; exact h.symm
  · simp

theorem map_plain (l : List Nat) : (plain l).map dataOut = plain l := by simp [plain, dataOut]

theorem map_frame (l : List Nat) : (mark l).map dataOut = mark l := by
  unfold mark
  induction l with
  | nil => rfl
  | cons x l ih =>
    cases l with
    | nil => rfl
    | cons y l => rw [frame, List.map_cons, ih]; rfl

theorem frame_len (bad : Bool) (l : List Nat) : (frame bad l).length = l.length := by
  induction l with
  | nil => rfl
  | cons x l ih =>
    cases l with
    | nil => rfl
    | cons y l => rw [frame, List.length_cons, ih]; rfl

theorem enc_cons (run : List Nat) (x : Nat) (xs : List Nat) : enc run (x :: xs) = if x = 0 then (run.length + 1) :: run ++ enc [] xs
    else if run.length = 253 then 255 :: (run ++ [x]) ++ (if xs = [] then [] else enc [] xs) else enc (run ++ [x]) xs := by rw [enc]

theorem encBad_cons (run : List Nat) (x y : Nat) (xs : List Nat) : encBad run (x :: y :: xs) = if x = 0 then (run.length + 1) :: run ++ encBad [] (y :: xs)
    else if run.length = 253 then 255 :: (run ++ [x]) ++ encBad [] (y :: xs) else encBad (run ++ [x]) (y :: xs) := by rw [encBad]

/-- encoder state while collecting the block `run` -/
def Coll (s : EIn) (run : List Nat) : Prop := ((s.st = .idle ∧ run = []) ∨ (s.st = .segment ∧ s.count = run.length + 1)) ∧ run.length ≤ 253 ∧ s.fail = false

theorem merge_plain_block (run : List Nat) (cs rest : List Beat) :
    mergeCodes (⟨run.length + 1, false, false⟩ :: cs) (plain run ++ rest) = plain ((run.length + 1) :: run) ++ mergeCodes cs rest := by
  rw [merge_block _ _ _ _ (by rw [follow_plain]; simp [plain]), map_plain]
  rfl

/-- final block in frame mode: last flag on its last data byte -/
theorem merge_last_block (run : List Nat) (x : Nat) (cs rest : List Beat) :
    mergeCodes (⟨run.length + 2, false, false⟩ :: cs) (plain run ++ (⟨x, true, false⟩ :: rest)) = mark ((run.length + 2) :: (run ++ [x])) ++ mergeCodes cs rest := by
  have e : plain run ++ (⟨x, true, false⟩ :: rest) = mark (run ++ [x]) ++ rest := by
    rw [mark, frame_append _ _ _ (by simp)]; simp [frame]
  rw [e, merge_block _ _ _ _ (by rw [follow_plain, mark, frame_len]; simp), map_frame]
  congr 1
  have : (run.length + 2) :: (run ++ [x]) = [run.length + 2] ++ (run ++ [x]) := rfl
  rw [this]
  unfold mark
  rw [frame_append false [run.length + 2] (run ++ [x]) (by simp)]
  rfl

theorem merge_az_block (run : List Nat) (x : Nat) (cs rest : List Beat) :
    mergeCodes (⟨run.length + 2, false, false⟩ :: cs) (plain run ++ (⟨x, false, false⟩ :: rest)) = plain ((run.length + 2) :: (run ++ [x])) ++ mergeCodes cs rest := by
  have := merge_plain_block (run ++ [x]) cs rest
  rw [plain_append, List.append_assoc] at this
  simpa [plain] using this

/-- frame body and tail: what remains to be sent when `run` is being collected and `xs` is still to come -/
def remain (az bad : Bool) (run xs : List Nat) : List Beat := if bad then wireBad az (encBad run xs) else wire az (enc run xs)

theorem frame_enc (az bad : Bool) : ∀ (xs : List Nat) (s : EIn) (run : List Nat), xs ≠ [] → Coll s run → ∃ s' cs ds, s'.st = .idle ∧ s'.fail = false ∧
    (∀ C D, (frame bad xs).foldl (feed az) (s, C, D) = (s', C ++ cs, D ++ ds)) ∧
    ∀ cs' ds', mergeCodes (cs ++ cs') (plain run ++ (ds ++ ds')) = remain az bad run xs ++ mergeCodes cs' ds' := by
  intro xs
  induction xs with
  | nil => intro s run h; exact absurd rfl h
  | cons x xs ih =>
    intro s run _ hc
    obtain ⟨hst, hlen, hfail⟩ := hc
    have hcode : ∀ b : Beat, (b.data = 0 ∨ (b.last = true ∧ b.user = true)) → ∃ s1, encByte az s b = (s1, [⟨run.length + 1, false, false⟩], []) ∧
        (b.last = false → s1.st = .idle ∧ s1.fail = false) ∧ (b.last = true → s1.st = .finalZero ∧ s1.fail = b.user) := by
      intro b hb
      rcases hst with ⟨h1, h2⟩ | ⟨h1, h2⟩
      · subst h2
        unfold encByte
        rw [h1]
        simp only
        rw [if_pos hb]
        cases hl : b.last
        · exact ⟨_, rfl, fun _ => ⟨rfl, rfl⟩, fun h => absurd h (by simp)⟩
        · exact ⟨_, rfl, fun h => absurd h (by simp), fun _ => ⟨rfl, rfl⟩⟩
      · unfold encByte
        rw [h1, h2]
        simp only
        rw [if_pos hb]
        cases hl : b.last
        · exact ⟨_, rfl, fun _ => ⟨rfl, rfl⟩, fun h => absurd h (by simp)⟩
        · exact ⟨_, rfl, fun h => absurd h (by simp), fun _ => ⟨rfl, rfl⟩⟩
    cases xs with
    | nil =>
      rw [frame]
      simp only [List.foldl_cons, List.foldl_nil]
      by_cases hz : x = 0 ∨ bad = true
      · obtain ⟨s1, e1, _, e3⟩ := hcode ⟨x, true, bad⟩ (by rcases hz with h | h <;> simp [h])
        obtain ⟨e4, e5⟩ := e3 rfl
        simp only at e5
        refine ⟨closed s1, ⟨run.length + 1, false, false⟩ :: closing az s1, [], by simp [closed, e4], by simp [closed, e4], ?_, ?_⟩
        · intro C D; simp [feed, e1]
        · intro cs' ds'
          rw [List.nil_append, List.cons_append, merge_plain_block]
          simp only [closing, e4, e5]
          cases bad
          · have hx : x = 0 := by simpa using hz
            subst hx
            cases az
            · have f : follow ⟨1, true, false⟩ = 0 := by simp [follow]
              simp only [Bool.false_eq_true, if_false, List.singleton_append]
              rw [mergeCodes, f]
              simp only [List.take_zero, List.map_nil, Nat.not_lt_zero, if_false, List.drop_zero, remain, wire, Bool.false_eq_true, enc, if_true]
              rw [mark, frame_append _ _ _ (by simp)]
              simp [frame, codeOut]
            · have f : follow ⟨1, false, false⟩ = 0 := by simp [follow]
              have f' : follow ⟨0, true, false⟩ = 0 := by simp [follow]
              simp only [Bool.false_eq_true, if_false, if_true, List.cons_append, List.nil_append]
              rw [mergeCodes, f]
              simp only [List.take_zero, List.map_nil, Nat.not_lt_zero, if_false, List.drop_zero]
              rw [mergeCodes, f']
              simp [remain, wire, enc, plain, codeOut]
          · cases az
            · have f : follow ⟨2, true, true⟩ = 0 := by simp [follow]
              simp only [if_true, Bool.false_eq_true, if_false, List.singleton_append]
              rw [mergeCodes, f]
              simp [remain, wireBad, encBad, plain, codeOut]
            · have f : follow ⟨2, false, true⟩ = 0 := by simp [follow]
              have f' : follow ⟨0, true, true⟩ = 0 := by simp [follow]
              simp only [if_true, List.cons_append, List.nil_append]
              rw [mergeCodes, f]
              simp only [List.take_zero, List.map_nil, Nat.not_lt_zero, if_false, List.drop_zero]
              rw [mergeCodes, f']
              simp [remain, wireBad, encBad, plain, codeOut]
      · obtain ⟨hx, hb⟩ : x ≠ 0 ∧ bad = false := ⟨fun h => hz (Or.inl h), by cases bad <;> simp_all⟩
        subst hb
        have hn : ¬ (x = 0 ∨ (true = true ∧ false = true)) := by simp [hx]
        have hr : remain az false run [x] = wire az ((run.length + 2) :: (run ++ [x])) := by
          unfold remain
          simp only [Bool.false_eq_true, if_false]
          rw [enc, if_neg hx]
          split
          · next h => rw [h]; simp
          · rw [enc]; simp
        have hb : ∃ s1, encByte az s ⟨x, true, false⟩ = (s1, [⟨run.length + 2, false, false⟩], [⟨x, !az, false⟩]) ∧ s1.fail = false ∧
            s1.st = if az then .appendZero else .idle := by
          rcases hst with ⟨h1, h2⟩ | ⟨h1, h2⟩
          · subst h2
            unfold encByte
            rw [h1]
            simp only [hx, false_or, Bool.false_eq_true, and_false, if_false, if_true, or_true]
            cases az <;> exact ⟨_, rfl, rfl, rfl⟩
          · unfold encByte
            rw [h1, h2]
            simp only [hx, false_or, Bool.false_eq_true, and_false, if_false, if_true, or_true]
            have : (run.length + 1 + 1) % 256 = run.length + 2 := by omega
            cases az <;> simp [this]
        obtain ⟨s1, e1, e2, e3⟩ := hb
        refine ⟨closed s1, ⟨run.length + 2, false, false⟩ :: closing az s1, [⟨x, !az, false⟩], ?_, ?_, ?_, ?_⟩
        · cases az <;> simp [closed, e3]
        · cases az <;> simp [closed, e3, e2]
        · intro C D; simp [feed, e1]
        · intro cs' ds'
          rw [hr, List.cons_append]
          cases az
          · simp only [closing, e3, Bool.not_false, List.singleton_append, List.nil_append]
            rw [merge_last_block]
            simp [wire]
          · simp only [closing, e3, if_true, Bool.not_true, List.singleton_append, e2]
            rw [merge_az_block, mergeCodes]
            have f' : follow ⟨0, true, false⟩ = 0 := by simp [follow]
            rw [f']
            simp [wire, codeOut]
    | cons y ys =>
      rw [frame]
      simp only [List.foldl_cons]
      by_cases hx : x = 0
      · obtain ⟨s1, e1, e2, _⟩ := hcode ⟨x, false, false⟩ (Or.inl hx)
        obtain ⟨e3, e4⟩ := e2 rfl
        obtain ⟨s', cs, ds, a, b, c, d⟩ := ih s1 [] (by simp) ⟨Or.inl ⟨e3, rfl⟩, by simp, e4⟩
        refine ⟨s', ⟨run.length + 1, false, false⟩ :: cs, ds, a, b, ?_, ?_⟩
        · intro C D
          have hcl : closed s1 = s1 := by simp [closed, e3]
          have hclg : closing az s1 = [] := by simp [closing, e3]
          have hf : feed az (s, C, D) ⟨x, false, false⟩ = (s1, C ++ [⟨run.length + 1, false, false⟩], D) := by simp [feed, e1, hcl, hclg]
          rw [hf, c]; simp
        · intro cs' ds'
          rw [List.cons_append, merge_plain_block]
          have := d cs' ds'
          rw [show plain [] = [] from rfl, List.nil_append] at this
          rw [this, ← List.append_assoc]
          congr 1
          unfold remain
          cases bad
          · simp only [Bool.false_eq_true, if_false]
            rw [enc_cons run x, if_pos hx, ← wire_append _ _ _ (enc_ne _ _)]
          · simp only [if_true]
            rw [encBad_cons run x, if_pos hx, ← wireBad_append]
      · have hn : ¬ (x = 0 ∨ (false = true ∧ false = true)) := by simp [hx]
        by_cases h253 : run.length = 253
        · have hb : ∃ s1, encByte az s ⟨x, false, false⟩ = (s1, [⟨255, false, false⟩], [⟨x, false, false⟩]) ∧ s1.fail = false ∧ s1.st = .segment ∧ s1.count = 1 := by
            rcases hst with ⟨h1, h2⟩ | ⟨h1, h2⟩
            · rw [h2] at h253; simp at h253
            · unfold encByte
              rw [h1, h2, h253]
              simp only
              rw [if_neg hn]
              exact ⟨_, rfl, rfl, rfl, rfl⟩
          obtain ⟨s1, e1, e2, e3, e4⟩ := hb
          obtain ⟨s', cs, ds, a, b, c, d⟩ := ih s1 [] (by simp) ⟨Or.inr ⟨e3, by simp [e4]⟩, by simp, e2⟩
          refine ⟨s', ⟨255, false, false⟩ :: cs, ⟨x, false, false⟩ :: ds, a, b, ?_, ?_⟩
          · intro C D
            have hcl : closed s1 = s1 := by simp [closed, e3]
            have hclg : closing az s1 = [] := by simp [closing, e3]
            have hf : feed az (s, C, D) ⟨x, false, false⟩ = (s1, C ++ [⟨255, false, false⟩], D ++ [⟨x, false, false⟩]) := by simp [feed, e1, hcl, hclg]
            rw [hf, c]; simp
          · intro cs' ds'
            have h2 := merge_az_block run x (cs ++ cs') (ds ++ ds')
            rw [h253] at h2
            rw [List.cons_append, List.cons_append, h2]
            have := d cs' ds'
            rw [show plain [] = [] from rfl, List.nil_append] at this
            rw [this, ← List.append_assoc]
            congr 1
            unfold remain
            cases bad
            · simp only [Bool.false_eq_true, if_false]
              rw [enc_cons run x, if_neg hx, if_pos h253, if_neg (by simp), ← wire_append _ _ _ (enc_ne _ _)]
            · simp only [if_true]
              rw [encBad_cons run x, if_neg hx, if_pos h253, ← wireBad_append]
        · have hb : ∃ s1, encByte az s ⟨x, false, false⟩ = (s1, [], [⟨x, false, false⟩]) ∧ s1.fail = false ∧ s1.st = .segment ∧ s1.count = run.length + 2 := by
            rcases hst with ⟨h1, h2⟩ | ⟨h1, h2⟩
            · subst h2
              unfold encByte
              rw [h1]
              simp only
              rw [if_neg hn]
              exact ⟨_, rfl, rfl, rfl, rfl⟩
            · unfold encByte
              rw [h1, h2]
              simp only
              rw [if_neg hn]
              have e1 : ¬ run.length + 1 = 254 := by omega
              have e2 : (run.length + 1 + 1) % 256 = run.length + 2 := by omega
              simp only [e1, if_false, e2, Bool.false_eq_true, or_self]
              exact ⟨_, rfl, rfl, rfl, rfl⟩
          obtain ⟨s1, e1, e2, e3, e4⟩ := hb
          obtain ⟨s', cs, ds, a, b, c, d⟩ := ih s1 (run ++ [x]) (by simp) ⟨Or.inr ⟨e3, by simp [e4]⟩, by simp; omega, e2⟩
          refine ⟨s', cs, ⟨x, false, false⟩ :: ds, a, b, ?_, ?_⟩
          · intro C D
            have hcl : closed s1 = s1 := by simp [closed, e3]
            have hclg : closing az s1 = [] := by simp [closing, e3]
            have hf : feed az (s, C, D) ⟨x, false, false⟩ = (s1, C, D ++ [⟨x, false, false⟩]) := by simp [feed, e1, hcl, hclg]
            rw [hf, c]; simp
          · intro cs' ds'
            have := d cs' ds'
            rw [plain_append, List.append_assoc] at this
            rw [List.cons_append]
            rw [show plain [x] ++ (ds ++ ds') = ⟨x, false, false⟩ :: (ds ++ ds') from rfl] at this
            rw [this]
            congr 1
            unfold remain
            cases bad
            · simp only [Bool.false_eq_true, if_false]
              rw [enc_cons run x, if_neg hx, if_neg h253]
            · simp only [if_true]
              rw [encBad_cons run x, if_neg hx, if_neg h253]

/-- a sequence of frames -/
theorem frames_enc (az : Bool) : ∀ (fs : List (Bool × List Nat)) (s : EIn), (∀ f ∈ fs, f.2 ≠ []) → s.st = .idle → s.fail = false → ∃ s' cs ds,
    s'.st = .idle ∧ s'.fail = false ∧
    (∀ C D, (fs.flatMap (fun f => frame f.1 f.2)).foldl (feed az) (s, C, D) = (s', C ++ cs, D ++ ds)) ∧
    ∀ cs' ds', mergeCodes (cs ++ cs') (ds ++ ds') = fs.flatMap (fun f => encoded az f.1 f.2) ++ mergeCodes cs' ds' := by
  intro fs
  induction fs with
  | nil => intro s _ h1 h2; exact ⟨s, [], [], h1, h2, by simp, by simp⟩
  | cons f fs ih =>
    intro s hf h1 h2
    obtain ⟨s1, cs1, ds1, a1, b1, c1, d1⟩ := frame_enc az f.1 f.2 s [] (hf f (by simp)) ⟨Or.inl ⟨h1, rfl⟩, by simp, h2⟩
    obtain ⟨s2, cs2, ds2, a2, b2, c2, d2⟩ := ih s1 (fun g hg => hf g (by simp [hg])) a1 b1
    refine ⟨s2, cs1 ++ cs2, ds1 ++ ds2, a2, b2, ?_, ?_⟩
    · intro C D
      rw [List.flatMap_cons, List.foldl_append, c1, c2]; simp
    · intro cs' ds'
      have := d1 (cs2 ++ cs') (ds2 ++ ds')
      rw [show plain [] = [] from rfl, List.nil_append, d2] at this
      rw [List.append_assoc, List.append_assoc, this, List.flatMap_cons, List.append_assoc]
      rfl

/-! ### clocked encoder -/

/-- beats accepted by the encoder in a run -/
def Enc.accepted (az : Bool) : Enc → List EncInp → List Beat
  | _, [] => []
  | s, i :: is => (if s.ready i then i.offer.toList else []) ++ Enc.accepted az (s.step az i) is

/-- beats delivered at the output in a run -/
def Enc.delivered (az : Bool) : Enc → List EncInp → List Beat
  | _, [] => []
  | s, i :: is => (if i.mready then s.out.m.toList else []) ++ Enc.delivered az (s.step az i) is

def Enc.run (az : Bool) (s : Enc) (is : List EncInp) : Enc := is.foldl (Enc.step az) s

/-- invariant relating the clocked encoder to the untimed one: `u` untimed result for the accepted beats, `dl` delivered beats -/
structure EInv (az : Bool) (s : Enc) (u : UEnc) (dl : List Beat) : Prop where
  st : closed s.i = u.1
  fl : s.i.st = .idle ∨ s.i.st = .segment → s.i.fail = false
  sk : s.out.ready = true → s.out.temp = none
  eq : ∀ cs' ds', mergeCodes (u.2.1 ++ cs') (u.2.2 ++ ds') = (dl ++ (s.out.m.toList ++ s.out.temp.toList)) ++
    mergeFrom s.ocount ((s.codeQ ++ closing az s.i) ++ cs') (s.dataQ ++ ds')

theorem encClose_spec (az : Bool) (s : EIn) : closed (encClose az s).1 = closed s ∧ closing az s = (encClose az s).2 ++ closing az (encClose az s).1 ∧
    (¬ (s.st = .idle ∨ s.st = .segment) → ((encClose az s).1.st = .idle ∨ (encClose az s).1.st = .segment → (encClose az s).1.fail = false)) := by
  obtain ⟨st, c, f⟩ := s
  cases st <;> cases az <;> simp [closed, encClose, closing]

/-- input side: the state and the FIFO contents advance as in the untimed view -/
theorem encIn_spec (az : Bool) (s : Enc) (i : EncInp) (u : UEnc) (hst : closed s.i = u.1) (hfl : s.i.st = .idle ∨ s.i.st = .segment → s.i.fail = false) :
    ∃ nc nd, (if s.ready i then i.offer.toList else []).foldl (feed az) u = (closed (encIn az s i).1, u.2.1 ++ nc, u.2.2 ++ nd) ∧
      closing az s.i ++ nc = (encIn az s i).2.1 ++ closing az (encIn az s i).1 ∧ nd = (encIn az s i).2.2 ∧
      ((encIn az s i).1.st = .idle ∨ (encIn az s i).1.st = .segment → (encIn az s i).1.fail = false) := by
  have hbyte : ∀ b, (s.i.st = .idle ∨ s.i.st = .segment) → ((encByte az s.i b).1.st = .idle ∨ (encByte az s.i b).1.st = .segment → (encByte az s.i b).1.fail = false) := by
    intro b hs
    rcases hs with h | h <;> unfold encByte <;> rw [h] <;> simp only <;> split <;> split <;> (try split) <;> simp
  have idle_case : (s.i.st = .idle ∨ s.i.st = .segment) → encIn az s i = (if s.ready i then (match i.offer with | some b => encByte az s.i b | none => (s.i, [], [])) else (s.i, [], [])) := by
    intro h
    have hf := hfl h
    have e : (⟨s.i.st, s.i.count, false⟩ : EIn) = s.i := by rw [← hf]
    unfold encIn
    rcases h with h | h
    · rw [h] at e ⊢; simp only [e]; cases i.offer <;> rfl
    · rw [h] at e ⊢; simp only [e]; cases i.offer <;> rfl
  by_cases h : s.i.st = .idle ∨ s.i.st = .segment
  · rw [idle_case h]
    have hcl : closed s.i = s.i := by rcases h with h | h <;> simp [closed, h]
    have hcg : closing az s.i = [] := by rcases h with h | h <;> simp [closing, h]
    rw [hcl] at hst
    rw [hcg]
    cases hr : s.ready i
    · refine ⟨[], [], ?_, ?_, rfl, hfl⟩
      · obtain ⟨u1, u2, u3⟩ := u; simp only at hst; subst hst; simp [hcl]
      · simp [hcg]
    · simp only [if_true]
      cases ho : i.offer with
      | none =>
        refine ⟨[], [], ?_, ?_, rfl, hfl⟩
        · obtain ⟨u1, u2, u3⟩ := u; simp only at hst; subst hst; simp [hcl]
        · simp [hcg]
      | some b =>
        simp only [Option.toList, List.foldl_cons, List.foldl_nil]
        refine ⟨(encByte az s.i b).2.1 ++ closing az (encByte az s.i b).1, (encByte az s.i b).2.2, ?_, by simp, rfl, hbyte b h⟩
        unfold feed
        rw [← hst]
  · have hr : s.ready i = false := by
      simp only [not_or] at h
      cases hs : s.i.st <;> simp_all [Enc.ready]
    rw [hr]
    simp only [Bool.false_eq_true, if_false, List.foldl_nil]
    have e : encIn az s i = if i.codeRdy then ((encClose az s.i).1, (encClose az s.i).2, []) else (s.i, [], []) := by
      unfold encIn
      cases hs : s.i.st <;> simp_all
    rw [e]
    obtain ⟨u1, u2, u3⟩ := u
    simp only at hst
    cases hc : i.codeRdy
    · refine ⟨[], [], ?_, ?_, rfl, fun hh => absurd hh h⟩
      · subst hst; simp
      · simp
    · refine ⟨[], [], ?_, ?_, rfl, ?_⟩
      · simp only [if_true, List.append_nil]
        rw [← hst, (encClose_spec az s.i).1]
      · simp only [if_true, List.append_nil]
        exact (encClose_spec az s.i).2.1
      · simp only [if_true]
        exact (encClose_spec az s.i).2.2 h

/-- output side: the beat handed to the output register is the next one of the merge -/
theorem encOut_spec (s : Enc) (i : EncInp) (cs' ds' : List Beat) :
    mergeFrom s.ocount (s.codeQ ++ cs') (s.dataQ ++ ds') = (if s.out.ready then (encOut s i).1.toList else []) ++
      mergeFrom (encOut s i).2.1 ((encOut s i).2.2.1 ++ cs') ((encOut s i).2.2.2 ++ ds') := by
  unfold encOut
  by_cases h0 : s.ocount = 0
  · rw [if_pos h0]
    cases hq : s.codeQ with
    | nil => simp
    | cons c cq =>
      simp only
      by_cases hb : (s.out.ready && i.codeVld) = true
      · rw [if_pos hb]
        rw [Bool.and_eq_true] at hb
        rw [h0, hb.1, List.cons_append, mergeFrom_code]
        rfl
      · rw [if_neg hb]; simp
  · rw [if_neg h0]
    cases hq : s.dataQ with
    | nil => simp
    | cons d dq =>
      simp only
      by_cases hb : (s.out.ready && i.dataVld) = true
      · rw [if_pos hb]
        rw [Bool.and_eq_true] at hb
        obtain ⟨n, hn⟩ : ∃ n, s.ocount = n + 1 := ⟨s.ocount - 1, by omega⟩
        rw [hn, hb.1, List.cons_append, mergeFrom_data]
        rfl
      · rw [if_neg hb]; simp

theorem EInv.step {az : Bool} {s : Enc} {u : UEnc} {dl : List Beat} (h : EInv az s u dl) (i : EncInp) :
    EInv az (s.step az i) ((if s.ready i then i.offer.toList else []).foldl (feed az) u) (dl ++ (if i.mready then s.out.m.toList else [])) := by
  obtain ⟨nc, nd, e1, e2, e3, e4⟩ := encIn_spec az s i u h.st h.fl
  refine ⟨?_, ?_, ?_, ?_⟩
  · rw [e1]; rfl
  · exact e4
  · exact AxisRegister.Skid.step_inv s.out _ h.sk
  · intro cs' ds'
    rw [e1]
    simp only
    have k := AxisRegister.Skid.step_key s.out ⟨(encOut s i).1, i.mready, false⟩ h.sk rfl
    simp only at k
    have hq := h.eq (nc ++ cs') (nd ++ ds')
    have ho := encOut_spec s i ((encIn az s i).2.1 ++ closing az (encIn az s i).1 ++ cs') (nd ++ ds')
    rw [List.append_assoc u.2.1, List.append_assoc u.2.2, hq]
    have r1 : s.codeQ ++ closing az s.i ++ (nc ++ cs') = s.codeQ ++ ((encIn az s i).2.1 ++ closing az (encIn az s i).1 ++ cs') := by
      rw [← e2]; simp only [List.append_assoc]
    rw [r1, ho]
    have r2 : ∀ x : List Beat, dl ++ (s.out.m.toList ++ s.out.temp.toList) ++ ((if s.out.ready then (encOut s i).1.toList else []) ++ x) =
        dl ++ (if i.mready then s.out.m.toList else []) ++ ((s.out.step ⟨(encOut s i).1, i.mready, false⟩).m.toList ++
          (s.out.step ⟨(encOut s i).1, i.mready, false⟩).temp.toList) ++ x := by
      intro x
      rw [List.append_assoc dl (if i.mready then _ else _), k]
      simp only [List.append_assoc]
    rw [r2]
    congr 1
    simp only [Enc.step, e3, List.append_assoc]

theorem EInv.run {az : Bool} : ∀ (is : List EncInp) {s : Enc} {u : UEnc} {dl : List Beat}, EInv az s u dl →
    EInv az (s.run az is) ((s.accepted az is).foldl (feed az) u) (dl ++ s.delivered az is) := by
  intro is
  induction is with
  | nil => intro s u dl h; simpa [Enc.run, Enc.accepted, Enc.delivered] using h
  | cons i is ih =>
    intro s u dl h
    have := ih (h.step i)
    rw [Enc.accepted, Enc.delivered, List.foldl_append, ← List.append_assoc]
    exact this

end Corundum.Cobs
