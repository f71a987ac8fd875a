import Verif.Proof.DmaRdData
import Verif.Proof.DmaRdPlay
import Verif.Proof.DmaRdFull
import Verif.Spec.DmaRdFull

/-! C74: the DMA read interface reports every descriptor once, with its own tag and the right error, when the data is in the RAM. -/
namespace Corundum.DmaRd

section
variable {Byte : Type} {w ow : Nat} {c : Cfg} {p : Ram} {host : Nat → Byte} {mem : Nat → Nat → Byte} {s s' : St Byte}

theorem reach_tag (h : Reach w ow c p host mem s) : TagInv w s := by
  induction h with
  | init => exact tag_inv_init mem
  | step s s' e _ hl hs ih => exact tag_inv_step e ih hl hs

theorem reach_op (hw : 5 ≤ w) (h : Reach w ow c p host mem s) : OpInv w ow c s := by
  induction h with
  | init => exact op_inv_init mem
  | step s s' e hr hl hs ih => exact op_inv_step hw e (reach_tag hr) ih hl hs

theorem reach_num (hw : 5 ≤ w) (h : Reach w ow c p host mem s) : NumInv c p s := by
  induction h with
  | init => exact num_inv_init mem
  | step s s' e hr hl hs ih => exact num_inv_step hw e (reach_tag hr) (reach_op hw hr) ih hl hs

theorem reach_wr (hw : 5 ≤ w) (h : Reach w ow c p host mem s) : WrInv s := by
  induction h with
  | init => exact wr_inv_init mem
  | step s s' e hr hl hs ih => exact wr_inv_step e (reach_op hw hr) ih hs

theorem reach_data (hw : 5 ≤ w) (hp : p.Ok) (hb : ∃ u v : Byte, u ≠ v) (h : Reach w ow c p host mem s) : DataInv c p host s := by
  induction h with
  | init => exact data_inv_init mem
  | step s s' e hr hl hs ih => exact data_inv_step hw hp hb e (reach_tag hr) (reach_op hw hr) (reach_num hw hr) (reach_wr hw hr) ih hl hs

/-- the tags of requests with answers to come are distinct and in range, and known to the interface; what it has noted for such a tag stays; a new request uses another tag -/
theorem C74_tags (h : Reach w ow c p host mem s) :
    s.outs.Nodup ∧ (∀ t ∈ s.outs, t < 2 ^ w ∧ s.act t = true) ∧
    ∀ e s', Legal c p host s e → step w c p s e = some s' → (∀ t ∈ s.outs, t ∈ s'.outs → s'.ent t = s.ent t) ∧ (e = .issue → ∃ t, t ∉ s.outs ∧ s'.outs = t :: s.outs) := by
  have i := reach_tag h
  refine ⟨outs_nodup i, ?_, ?_⟩
  · intro t ht
    refine ⟨?_, (i.act t).2 (Or.inr ht)⟩
    have := i.one t
    have hc := count_mem.1 ht
    unfold tagN at this
    by_cases hlt : t < 2 ^ w
    · exact hlt
    · rw [if_neg hlt] at this; omega
  · intro e s' hl hs
    cases e with
    | accept d => obtain ⟨o, h1, h2, rfl⟩ := accept_inv hs; exact ⟨fun _ _ _ => rfl, fun h => by cases h⟩
    | issue =>
      obtain ⟨sel, r, rs, o, t, h1, h2, h3, rfl⟩ := issue_inv hs
      have hno := tag_not_out i h3
      refine ⟨?_, fun _ => ⟨t, hno, rfl⟩⟩
      intro u hu _
      have : u ≠ t := by rintro rfl; exact hno hu
      simp [upd, this]
    | opTag => obtain ⟨o, os, h1, h2, rfl⟩ := opTag_inv hs; exact ⟨fun _ _ _ => rfl, fun h => by cases h⟩
    | tag t => obtain ⟨h1, h2, rfl⟩ := tag_inv hs; exact ⟨fun _ _ _ => rfl, fun h => by cases h⟩
    | cpl t hd d => obtain ⟨h1, h2, rfl⟩ := cpl_inv hs; exact ⟨fun _ _ _ => rfl, fun h => by cases h⟩
    | beat => obtain ⟨t, o, x, ws, fin, h1, h2, rfl⟩ := beat_inv hs; exact ⟨fun _ _ _ => rfl, fun h => by cases h⟩
    | err t code => obtain ⟨h1, h2, h3, h4, rfl⟩ := err_inv hs; exact ⟨fun _ _ _ => rfl, fun h => by cases h⟩
    | release => obtain ⟨t, ts, h1, rfl⟩ := release_inv hs; exact ⟨fun _ _ _ => rfl, fun h => by cases h⟩
    | done n => obtain ⟨o, x, ws, h1, rfl⟩ := done_inv hs; exact ⟨fun _ _ _ => rfl, fun h => by cases h⟩
    | pop =>
      obtain ⟨e, es, h1, h2, ⟨_, rfl⟩ | ⟨_, rfl⟩⟩ := pop_inv hs
      · exact ⟨fun _ _ _ => rfl, fun h => by cases h⟩
      · exact ⟨fun _ _ _ => rfl, fun h => by cases h⟩

/-- no descriptor is reported twice; every report has the tag of its descriptor, and an error exactly if one of the requests made for it failed;
when there is nothing left to do, every descriptor has been reported -/
theorem C74_once (hw : 5 ≤ w) (h : Reach w ow c p host mem s) :
    (s.out.map fun x => x.1).Nodup ∧ (∀ x ∈ s.out, ∃ d, s.hist[x.1]? = some d ∧ x.2.1 = d.tag ∧ (x.2.2 ≠ 0 ↔ x.1 ∈ s.failed)) ∧
    (s.cur = none → s.outs = [] → s.stat = [] → ∀ i, i < s.hist.length → ∃ x ∈ s.out, x.1 = i) := by
  have oi := reach_op hw h
  have ni := reach_num hw h
  refine ⟨ni.nodup, ?_, ?_⟩
  · intro x hx
    obtain ⟨d, h1, h2⟩ := ni.outOk x hx
    exact ⟨d, h1, h2, ni.outErr x hx⟩
  · intro h1 h2 h3 i hi
    rcases ni.all i hi with q | ⟨o, q | ⟨q, _⟩, _⟩
    · exact q
    · have := oi.pos o q
      simp [outN, finN, h2, h3] at this
    · rw [h1] at q; exact absurd q (by simp)

/-- when a report without error is made, the buffer of the descriptor holds the bytes of host memory -/
theorem C74_data (hw : 5 ≤ w) (hp : p.Ok) (h : Reach w ow c p host mem s) (e : Ev Byte) (hs : step w c p s e = some s') (i tag : Nat) (ho : s'.out = s.out ++ [(i, tag, 0)]) :
    ∃ d, s'.hist[i]? = some d ∧ d.tag = tag ∧ ∀ k, k < d.len → s'.mem d.sel ((d.ram + k) % 2 ^ p.aw) = host (d.addr + k) := by
  have hne : s'.out ≠ s.out := by
    rw [ho]; intro hc
    have := congrArg List.length hc
    simp at this
  cases e with
  | accept d => obtain ⟨o, h1, h2, rfl⟩ := accept_inv hs; exact absurd rfl hne
  | issue => obtain ⟨sel, r, rs, o, t, h1, h2, h3, rfl⟩ := issue_inv hs; exact absurd rfl hne
  | opTag => obtain ⟨o, os, h1, h2, rfl⟩ := opTag_inv hs; exact absurd rfl hne
  | tag t => obtain ⟨h1, h2, rfl⟩ := tag_inv hs; exact absurd rfl hne
  | cpl t hd d => obtain ⟨h1, h2, rfl⟩ := cpl_inv hs; exact absurd rfl hne
  | beat => obtain ⟨t, o, x, ws, fin, h1, h2, rfl⟩ := beat_inv hs; exact absurd rfl hne
  | err t code => obtain ⟨h1, h2, h3, h4, rfl⟩ := err_inv hs; exact absurd rfl hne
  | release => obtain ⟨t, ts, h1, rfl⟩ := release_inv hs; exact absurd rfl hne
  | done n => obtain ⟨o, x, ws, h1, rfl⟩ := done_inv hs; exact absurd rfl hne
  | pop =>
    have hr' : Reach w ow c p host mem s' := Reach.step s s' .pop h trivial hs
    obtain ⟨e, es, h1, h2, ⟨he, rfl⟩ | ⟨_, rfl⟩⟩ := pop_inv hs
    · have oi := reach_op hw h
      have ni := reach_num hw h
      have ha : Active s e.op := Or.inl (emit_last hw (reach_tag h) oi h1 he).2.1
      obtain ⟨q1, q2, _⟩ := ni.num _ ha
      have ho' := List.append_cancel_left ho
      simp only [List.cons.injEq, Prod.mk.injEq, and_true] at ho'
      obtain ⟨o1, o2, o3⟩ := ho'
      refine ⟨s.desc e.op, by rw [← o1]; exact q1, by rw [← o2, q2], ?_⟩
      intro k hk
      by_cases hb : ∃ u v : Byte, u ≠ v
      · have hfl : s.num e.op ∉ s.failed := by
          have := (reach_num hw hr').outErr (s.num e.op, s.utag e.op, errorOf s e) (by simp)
          simp only [o3] at this
          exact fun hc => absurd (this.2 hc) (by simp)
        exact emit_data hw hp (reach_tag h) oi ni (reach_wr hw h) (reach_data hw hp hb h) h1 h2 he hfl k hk
      · apply Classical.byContradiction
        intro hc
        exact hb ⟨_, _, hc⟩
    · exact absurd rfl hne

/-- the RAM changes only inside the buffers of descriptors that have been taken and not yet been reported -/
theorem C74_isolated (hw : 5 ≤ w) (hp : p.Ok) (h : Reach w ow c p host mem s) (e : Ev Byte) (hs : step w c p s e = some s') (z y : Nat) (hy : y < 2 ^ p.aw) (hne : s'.mem z y ≠ s.mem z y) :
    ∃ i d, s.hist[i]? = some d ∧ (∀ x ∈ s.out, x.1 ≠ i) ∧ InBuf p d z y := by
  cases e with
  | accept d => obtain ⟨o, h1, h2, rfl⟩ := accept_inv hs; exact absurd rfl hne
  | issue => obtain ⟨sel, r, rs, o, t, h1, h2, h3, rfl⟩ := issue_inv hs; exact absurd rfl hne
  | opTag => obtain ⟨o, os, h1, h2, rfl⟩ := opTag_inv hs; exact absurd rfl hne
  | tag t => obtain ⟨h1, h2, rfl⟩ := tag_inv hs; exact absurd rfl hne
  | cpl t hd d => obtain ⟨h1, h2, rfl⟩ := cpl_inv hs; exact absurd rfl hne
  | beat => obtain ⟨t, o, x, ws, fin, h1, h2, rfl⟩ := beat_inv hs; exact absurd rfl hne
  | err t code => obtain ⟨h1, h2, h3, h4, rfl⟩ := err_inv hs; exact absurd rfl hne
  | release => obtain ⟨t, ts, h1, rfl⟩ := release_inv hs; exact absurd rfl hne
  | pop =>
    obtain ⟨e, es, h1, h2, ⟨_, rfl⟩ | ⟨_, rfl⟩⟩ := pop_inv hs
    · exact absurd rfl hne
    · exact absurd rfl hne
  | done n =>
    obtain ⟨o, x, ws, h1, rfl⟩ := done_inv hs
    have ni := reach_num hw h
    have hm : (o, x) ∈ s.pend n := by rw [h1]; simp
    have ha := pend_active (reach_op hw h) (reach_wr hw h) hm
    obtain ⟨q1, _, q3⟩ := ni.num _ ha
    have hh : Hits p x z y := by
      apply Classical.byContradiction
      intro hc
      apply hne
      show x.applySeg p n s.mem z y = s.mem z y
      unfold Write.applySeg
      rw [apply_eq, if_neg hc]
      simp
    exact ⟨_, _, q1, q3, (reach_data hw hp ⟨_, _, hne⟩ h).pend n _ hm z y hy hh⟩

/-- as long as a descriptor is without its report, the interface can go on by itself, or it waits for the host to answer a request it has made -/
theorem C74_progress (hw : 5 ≤ w) (h : Reach w ow c p host mem s) (i : Nat) (hi : i < s.hist.length) (hn : ∀ x ∈ s.out, x.1 ≠ i) :
    (∃ e, (e = .issue ∨ (∃ t, e = .tag t) ∨ e = .beat ∨ e = .release ∨ (∃ n, e = .done n) ∨ e = .pop) ∧ (step w c p s e).isSome = true) ∨
    (s.outs ≠ [] ∧ s.rx = none ∧ s.stat = []) := by
  have ti := reach_tag h
  have oi := reach_op hw h
  have ni := reach_num hw h
  have wi := reach_wr hw h
  cases hst : s.stat with
  | cons e es =>
    left
    by_cases hall : ∀ n ∈ e.segs, 0 < s.dn n
    · refine ⟨.pop, by simp, ?_⟩
      show (pop w s).isSome = true
      unfold pop
      rw [hst]
      have : (e.segs.all fun n => decide (0 < s.dn n)) = true := by
        rw [List.all_eq_true]; intro n hn; simpa using hall n hn
      simp only [this, if_true]
      split <;> rfl
    · obtain ⟨n, hn2, hz⟩ : ∃ n ∈ e.segs, s.dn n = 0 := by
        apply Classical.byContradiction
        intro hc
        apply hall
        intro n hn2
        apply Classical.byContradiction
        intro hz
        exact hc ⟨n, hn2, by omega⟩
      refine ⟨.done n, by simp, ?_⟩
      show (done p s n).isSome = true
      have hp := wi.pend n
      rw [hz, hst, List.filter_cons, if_pos (by simpa using hn2)] at hp
      cases hpe : s.pend n with
      | nil => rw [hpe] at hp; simp at hp
      | cons x xs => unfold done; rw [hpe]; rfl
  | nil =>
    cases hrx : s.rx with
    | some r =>
      left
      refine ⟨.beat, by simp, ?_⟩
      show (beat p s).isSome = true
      obtain ⟨q, _⟩ := ti.rx r hrx
      obtain ⟨t, o, ws, fin⟩ := r
      cases ws with
      | nil => exact absurd rfl q
      | cons x ws =>
        unfold beat
        rw [hrx]
        simp [hst, depth]
    | none =>
      by_cases hout : s.outs = []
      · left
        have hcur : ∃ sel rs, s.cur = some (sel, rs) := by
          rcases ni.all i hi with ⟨x, hx, q⟩ | ⟨o, q | ⟨q, _⟩, _⟩
          · exact absurd q (hn x hx)
          · have := oi.pos o q
            simp [outN, finN, hout, hst] at this
          · rw [Option.isSome_iff_exists] at q
            obtain ⟨⟨sel, rs⟩, q⟩ := q
            exact ⟨sel, rs, q⟩
        obtain ⟨sel, rs, hcur⟩ := hcur
        obtain ⟨hrs, o, hop, _⟩ := oi.cur _ _ hcur
        cases htr : s.tagReg with
        | some t =>
          refine ⟨.issue, by simp, ?_⟩
          show (issue w s).isSome = true
          cases rs with
          | nil => exact absurd rfl hrs
          | cons r rs => unfold issue; rw [hcur, hop, htr]; rfl
        | none =>
          cases hrel : s.rel with
          | cons t ts =>
            refine ⟨.release, by simp, ?_⟩
            show (release s).isSome = true
            unfold release; rw [hrel]; rfl
          | nil =>
            refine ⟨.tag 0, by simp, ?_⟩
            show (tag s 0).isSome = true
            have := ti.one 0
            rw [if_pos (Nat.two_pow_pos _)] at this
            simp [tagN, htr, hrel, hout] at this
            have hm : 0 ∈ s.free := count_mem.2 (by omega)
            unfold tag
            rw [if_pos ⟨htr, hm⟩]; rfl
      · right; exact ⟨hout, rfl, rfl⟩

end

theorem fifo_run {A : Type} : ∀ (is : List (DmaRdFull.In A)) (s : DmaRdFull.St A) (q : List A), DmaRdFull.Rep s q →
    ∃ q', DmaRdFull.Rep (DmaRdFull.run s is) q' ∧ s.rd.toList ++ q ++ s.wr.toList ++ DmaRdFull.accs s is =
      DmaRdFull.pops s is ++ ((DmaRdFull.run s is).rd.toList ++ q' ++ (DmaRdFull.run s is).wr.toList)
  | [], s, q, h => ⟨q, h, by simp [DmaRdFull.accs, DmaRdFull.pops, DmaRdFull.run]⟩
  | i :: is, s, q, h => by
    obtain ⟨q1, r1, r2, _⟩ := DmaRdFull.rep_step h i
    obtain ⟨q2, r3, r4⟩ := fifo_run is _ q1 r1
    refine ⟨q2, r3, ?_⟩
    simp only [DmaRdFull.accs, DmaRdFull.pops, DmaRdFull.run]
    rw [← List.append_assoc, r2, List.append_assoc, r4]
    simp only [List.append_assoc]

/-- the status FIFO loses and reorders nothing: what has gone in is what has come out, followed by what is inside; at most 32 entries are inside, and at most 31 when one is made -/
theorem C74_fifo {A : Type} (mem : Nat → A) (is : List (DmaRdFull.In A)) : ∃ q : List A, q.length ≤ 32 ∧ DmaRdFull.accs { mem := mem } is = DmaRdFull.pops { mem := mem } is ++ q ∧
    ∀ i, (DmaRdFull.acc (DmaRdFull.run { mem := mem } is) i).isSome = true → q.length ≤ 31 := by
  obtain ⟨q, h1, h2⟩ := fifo_run is { mem := mem } [] ⟨rfl, Nat.zero_lt_succ _, (by simp), (by intro k h; simp at h), (by intro _; simp), (by intro h; cases h)⟩
  refine ⟨_, ?_, h2, ?_⟩
  · have h3 := h1.len
    rw [List.length_append, List.length_append]
    have h4 : ∀ (o : Option A), o.toList.length ≤ 1 := by intro o; cases o <;> simp
    have := h4 (DmaRdFull.run { mem := mem } is).rd
    omega
  · intro i hi
    obtain ⟨_, _, _, r3⟩ := DmaRdFull.rep_step h1 i
    have := r3 hi
    rw [List.length_append, List.length_append]; exact this

/-! ### Concrete runs -/

def exCfg : Cfg := ⟨16, 64, 13, 0, false⟩
def exRam : Ram := ⟨2, 128, 13⟩

theorem exRam_ok : exRam.Ok := ⟨0, 7, by decide⟩

/-- a request and its answer -/
def exRound : List Cmd := [.tag 0, .issue, .ans 0 128, .beat, .release]

def exEarly : List Cmd := [.opTag, .accept ⟨7, 0, 0, 0, 4224⟩] ++ (List.replicate 17 exRound).flatten ++ (List.range 16).flatMap (fun t => [.tag t, .issue]) ++ [.done 0]

def exObs (s : St Nat) : List (Nat × Nat × Nat) × Nat × Nat := (s.out, s.outs.length, s.mem 0 4223)

set_option maxRecDepth 1000000 in
/-- with 16 tags the counters of requests made and answered are too short: an operation of 33 requests is reported as done without error with 16 of its requests not answered yet and the last byte of the buffer not set -/
theorem C74_early_counterexample : ∃ (s s' : St Nat), Reach 4 1 exCfg exRam (fun _ => 1) (fun _ _ => 0) s ∧ step 4 exCfg exRam s .pop = some s' ∧
    s.hist = [⟨7, 0, 0, 0, 4224⟩] ∧ s.out = [] ∧ s'.out = [(0, 7, 0)] ∧ s'.outs.length = 16 ∧ s'.mem 0 4223 = 0 := by
  have h1 : (play (fun _ => 1) 4 exCfg exRam exEarly (init 4 1 fun _ _ => 0)).isSome = true := by decide
  obtain ⟨s, hs⟩ := Option.isSome_iff_exists.1 h1
  have h2 : ((play (fun _ => 1) 4 exCfg exRam exEarly (init 4 1 fun _ _ => 0)).map fun s => (s.hist, s.out)) = some ([⟨7, 0, 0, 0, 4224⟩], []) := by decide
  have h3 : ((play (fun _ => 1) 4 exCfg exRam exEarly (init 4 1 fun _ _ => 0)).bind fun s => (step 4 exCfg exRam s .pop).map exObs) = some ([(0, 7, 0)], 16, 0) := by decide
  rw [hs] at h2 h3
  simp only [Option.map_some, Option.some.injEq, Prod.mk.injEq, Option.bind_some] at h2 h3
  cases hq : step 4 exCfg exRam s .pop with
  | none => rw [hq] at h3; exact absurd h3 (by simp)
  | some s' =>
    rw [hq] at h3
    simp only [Option.map_some, Option.some.injEq, exObs, Prod.mk.injEq] at h3
    exact ⟨s, s', play_reach _ Reach.init hs, hq, h2.1, h2.2, h3.1, h3.2.1, h3.2.2⟩

def exPoison : List Cmd := [.opTag, .accept ⟨7, 0, 0, 0, 512⟩, .tag 0, .issue]

set_option maxRecDepth 1000000 in
/-- a request may be answered by several completions.  If one of them ends it with an error and the next follows before the tag is released, the tag is released twice,
and two requests with the same tag are outstanding -/
theorem C74_poison_counterexample : ∃ (s s1 s2 : St Nat), Reach 8 1 exCfg exRam (fun _ => 1) (fun _ _ => 0) s ∧ 0 ∈ s.outs ∧ (s.ent 0).r.bytes = List.range 128 ∧ s.rel = [] ∧
    step 8 exCfg exRam s (.err 0 10) = some s1 ∧ step 8 exCfg exRam s1 (.err 0 10) = some s2 ∧
    ((([.release, .release, .tag 0, .issue, .tag 0, .issue] : List (Ev Nat)).foldl (fun (o : Option (St Nat)) e => o.bind fun s => step 8 exCfg exRam s e) (some s2)).map fun s => s.outs) = some [0, 0] := by
  have h1 : (play (fun _ => 1) 8 exCfg exRam exPoison (init 8 1 fun _ _ => 0)).isSome = true := by decide
  obtain ⟨s, hs⟩ := Option.isSome_iff_exists.1 h1
  have h2 : ((play (fun _ => 1) 8 exCfg exRam exPoison (init 8 1 fun _ _ => 0)).map fun s => (s.outs, (s.ent 0).r.bytes, s.rel)) = some ([0], List.range 128, []) := by decide
  have h3 : ((play (fun _ => 1) 8 exCfg exRam exPoison (init 8 1 fun _ _ => 0)).bind fun s => (step 8 exCfg exRam s (.err 0 10)).bind fun s1 => (step 8 exCfg exRam s1 (.err 0 10)).bind fun s2 =>
    ((([.release, .release, .tag 0, .issue, .tag 0, .issue] : List (Ev Nat)).foldl (fun (o : Option (St Nat)) e => o.bind fun s => step 8 exCfg exRam s e) (some s2)).map fun s => s.outs)) = some [0, 0] := by decide
  rw [hs] at h2 h3
  simp only [Option.map_some, Option.some.injEq, Prod.mk.injEq, Option.bind_some] at h2 h3
  cases hq : step 8 exCfg exRam s (.err 0 10) with
  | none => rw [hq] at h3; exact absurd h3 (by simp)
  | some s1 =>
    rw [hq] at h3
    simp only [Option.bind_some] at h3
    cases hq2 : step 8 exCfg exRam s1 (.err 0 10) with
    | none => rw [hq2] at h3; exact absurd h3 (by simp)
    | some s2 =>
      rw [hq2] at h3
      simp only [Option.bind_some] at h3
      exact ⟨s, s1, s2, play_reach _ Reach.init hs, by rw [h2.1]; simp, h2.2.1, h2.2.2, hq, hq2, h3⟩

/-- three descriptors, the second of length zero; requests are answered in another order and in parts, one of the third ends with an error -/
def exRun : List Cmd :=
  [.opTag, .accept ⟨7, 0, 100, 60, 150⟩, .tag 3, .issue, .tag 1, .issue, .opTag, .accept ⟨9, 1, 5, 0, 0⟩, .tag 2, .issue, .opTag, .accept ⟨4, 2, 4000, 8000, 300⟩, .tag 0, .issue, .tag 4, .issue, .tag 5, .issue,
   .zero 2, .beat, .release, .ans 1 64, .beat, .err 4 10, .release, .ans 3 28, .beat, .ans 1 122, .beat, .ans 5 76, .beat, .ans 0 96, .beat,
   .pop, .done 0, .done 1, .pop, .pop, .done 0, .pop, .done 1]

set_option maxRecDepth 1000000 in
/-- the run is legal; the next `pop` reports the first descriptor, after the second and before the third -/
example : ∃ s s' : St Nat, Reach 5 2 exCfg exRam (fun a => a) (fun _ _ => 0) s ∧ step 5 exCfg exRam s .pop = some s' ∧ s.outs = [] ∧ s.failed = [2] ∧
    s.out = [(1, 9, 0)] ∧ s'.out = s.out ++ [(0, 7, 0)] ∧ s'.mem 0 60 = 100 ∧ s'.mem 0 209 = 249 ∧ s'.mem 2 8000 = 0 := by
  have h1 : (play (fun a => a) 5 exCfg exRam exRun (init 5 2 fun _ _ => 0)).isSome = true := by decide
  obtain ⟨s, hs⟩ := Option.isSome_iff_exists.1 h1
  have h2 : ((play (fun a => a) 5 exCfg exRam exRun (init 5 2 fun _ _ => 0)).map fun s => (s.outs, s.failed, s.out)) = some ([], [2], [(1, 9, 0)]) := by decide
  have h3 : ((play (fun a => a) 5 exCfg exRam exRun (init 5 2 fun _ _ => 0)).bind fun s => (step 5 exCfg exRam s .pop).map fun s => (s.out, s.mem 0 60, s.mem 0 209, s.mem 2 8000)) =
      some ([(1, 9, 0), (0, 7, 0)], 100, 249, 0) := by decide
  rw [hs] at h2 h3
  simp only [Option.map_some, Option.some.injEq, Prod.mk.injEq, Option.bind_some] at h2 h3
  cases hq : step 5 exCfg exRam s .pop with
  | none => rw [hq] at h3; exact absurd h3 (by simp)
  | some s' =>
    rw [hq] at h3
    simp only [Option.map_some, Option.some.injEq, Prod.mk.injEq] at h3
    exact ⟨s, s', play_reach _ Reach.init hs, hq, h2.1, h2.2.1, h2.2.2, by rw [h2.2.2, h3.1]; rfl, h3.2.1, h3.2.2.1, h3.2.2.2⟩

set_option maxRecDepth 1000000 in
/-- to the end: the third descriptor is reported with its error -/
example : ((play (fun a => a) 5 exCfg exRam (exRun ++ [.pop, .done 0, .pop, .done 0, .done 1, .pop]) (init 5 2 fun _ _ => 0)).map fun s => (s.out, s.stat)) =
    some ([(1, 9, 0), (0, 7, 0), (2, 4, 10)], []) := by decide

end Corundum.DmaRd
