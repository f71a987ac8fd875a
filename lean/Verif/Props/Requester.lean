import Verif.Proof.RequesterRead

/-!
C100, C101: concurrent requests of `PcieIfTestDevice`.
-/

namespace Corundum.Requester
open Corundum.Pcie Corundum.Struct

variable {count : Nat} {answer : Tlp → List Tlp}

/-- Whatever the requests, the order in which the coroutines run, the completions and the timeouts: requests that are outstanding have different
tags, all below the number of tags; so there are never more requests outstanding than tags; a tag is marked as used exactly while
a request has it, and the `assert` in `release_tag` never fails. -/
theorem C100_tags (hc : 0 < count) (es : List Ev) :
    let s := run count answer St.init es
    (∀ (i j : Nat) (o p : Op) (t : Nat), s.ops[i]? = some o → s.ops[j]? = some p → o.tag? = some t → p.tag? = some t → i = j) ∧
    (∀ t, s.active t = true ↔ ∃ (i : Nat) (o : Op), s.ops[i]? = some o ∧ o.tag? = some t) ∧
    (∀ o ∈ s.ops, ∀ t, o.tag? = some t → t < count) ∧ s.bad = false := by
  have h := inv_run (answer := answer) hc inv_init es
  refine ⟨?_, ?_, ?_, h.good⟩
  · intro i j o p t hi hj ho hp
    exact h.tags.inj i j t (by rw [tagAt_of hi, ho]) (by rw [tagAt_of hj, hp])
  · intro t
    constructor
    · intro ha
      obtain ⟨i, hi⟩ := h.tags.held t ha
      unfold tagAt at hi
      obtain ⟨o, ho, hot⟩ := Option.bind_eq_some_iff.1 hi
      exact ⟨i, o, ho, hot⟩
    · rintro ⟨i, o, ho, hot⟩
      exact (h.tags.act i t (by rw [tagAt_of ho, hot])).2
  · intro o ho t ht
    obtain ⟨i, hi⟩ := List.mem_iff_getElem?.1 ho
    exact (h.tags.act i t (by rw [tagAt_of hi, ht])).1

/-- Without timeouts, an operation that has returned has exactly the completions of its own request, in order: none of another request, none missing. -/
theorem C100_results (hc : 0 < count) (es : List Ev) (ha : AllAnswered count answer es) (hu : Untimed es) (i : Nat) (o : Op) (t : Nat) (got : List Tlp)
    (hi : (run count answer St.init es).ops[i]? = some o) (hd : o.phase = .done t got) : t < count ∧ got = answer (withTag o.req t) := by
  have h := ((dinv_run hc dinv_init es ha hu).ops i o hi).1
  unfold Data at h
  rw [hd] at h
  exact h

/-- From any state reached, with whatever timeouts, the coroutines and the completer together can make only so many steps: nobody waits for a tag again and again for ever. -/
theorem C100_terminates (hc : 0 < count) (es : List Ev) : ∃ n, ∀ more, Steps count answer (run count answer St.init es) more → more.length ≤ n :=
  ⟨_, fun more h => steps_bound hc more _ (inv_run hc inv_init es) h⟩

/-- Without timeouts: when no step is left, every operation has returned; no wake-up is lost, and no operation is left without a tag. -/
theorem C100_all_return (hc : 0 < count) (es : List Ev) (ha : AllAnswered count answer es) (hu : Untimed es) (hs : ∀ e, ¬ Enabled (run count answer St.init es) e) :
    ∀ o ∈ (run count answer St.init es).ops, o.isDone := stuck_done hc (dinv_run hc dinv_init es ha hu) hs

/-- With timeouts `C100_results` is false: a completion that comes after the timeout of its request is given to the next request with the same tag.
Two requests with one tag; any request for which one completion is enough gets the completion of the other. -/
theorem C100_late_completion (r0 r1 c0 : Tlp) (a1 : List Tlp) (h0 : answer (withTag r0 0) = [c0]) (ht : c0.tag = 0) (h1 : answer (withTag r1 0) = a1) (hs : stop r1 c0 = true) :
    ∃ o, (run 1 answer St.init [.spawn r0 true, .run 0, .run 0, .timeout 0, .run 0, .spawn r1 true, .run 1, .run 1, .arrive 0, .run 1]).ops[1]? = some o ∧ o.req = r1 ∧ o.phase = .done 0 [c0] := by
  refine ⟨⟨r1, true, .done 0 [c0]⟩, ?_, rfl, rfl⟩
  simp [run, step, runOp, receive, take, finish, scan, St.init, upd, h0, h1, ht, hs, Op.cpl, Op.wake]

/-! ### C101 -/

/-- The requests of `dma_mem_read` are reads within the memory, at most the maximum read request size, none across a 4 kB boundary, and each in the address format its address needs. -/
theorem C101_requests (mrrs : Nat) (req : Pcie.Id) (base size addr length : Nat) (hb : base % 4 = 0) (hs : size % 4 = 0) (h1 : base ≤ addr) (h2 : addr + max length 1 ≤ base + size) :
    ∀ r ∈ readRequests mrrs req addr length, InMemory base size r.2 ∧ r.2.length ≤ 32 * 2 ^ mrrs ∧ r.2.requester = req ∧ (r.2.fmt = 1 ↔ r.2.address > 0xffffffff) := by
  intro r hr
  obtain ⟨a, _, b⟩ := dmaReads_ok mrrs req _ base size hb hs _ addr _ h1 h2 r hr
  exact ⟨a, b⟩

/-- The completer answers each of them completely. -/
theorem C101_answered (count mps : Nat) (completer : Pcie.Id) (base : Nat) (mem : List Nat) (hm : ∀ b ∈ mem, b < 256) (t : Tlp) (h : InMemory base mem.length t) :
    Answered count (memory mps completer base mem) t := fun u _ =>
  ⟨(memory_read mps completer base mem hm t h u).1, fun c hc => ((memory_read mps completer base mem hm t h u).2.1 c hc).1⟩

/-- `dma_mem_read(addr, length)` returns the bytes of the memory, whatever other operations are under way, with however few tags, and in whatever order the
completions of the different requests come back. -/
theorem C101_read (hc : 0 < count) (mps mrrs : Nat) (req completer : Pcie.Id) (base : Nat) (mem : List Nat) (hm : ∀ b ∈ mem, b < 256) (hb : base % 4 = 0) (hs : mem.length % 4 = 0)
    (hans : ∀ t, InMemory base mem.length t → answer t = memory mps completer base mem t) (es : List Ev) (ha : AllAnswered count answer es) (hu : Untimed es)
    (addr length : Nat) (h1 : base ≤ addr) (h2 : addr + max length 1 ≤ base + mem.length) (parts : List (Nat × List Tlp))
    (hj : Joined (run count answer St.init es) (readRequests mrrs req addr length) parts) :
    dmaResult length parts = some (slice mem (addr - base) (addr - base + length)) := by
  have D := dinv_run hc dinv_init es ha hu
  unfold dmaResult
  by_cases hz : length = 0
  · subst hz
    have hok := dmaReads_ok mrrs req true base mem.length hb hs 1 addr 1 h1 h2
    have hj' : Joined (run count answer St.init es) (dmaReads mrrs req true 1 addr 1) parts := hj
    rw [dmaReads, if_neg (by omega)] at hj' hok
    have hk : dmaReadLen mrrs addr 1 = 1 := by have := dmaReadLen_spec mrrs addr 1 (by omega); omega
    rw [hk] at hj' hok
    dsimp only at hj' hok
    cases parts with
    | nil => exact hj'.elim
    | cons p ps =>
      obtain ⟨m, got⟩ := p
      obtain ⟨rfl, ⟨i, tag, hi⟩, hrest⟩ := hj'
      have hin := (hok _ (List.mem_cons_self ..)).1
      simp only [if_true] at hin hi
      generalize ht : ({ setBe { fmt := if addr > 0xffffffff then 1 else 0, requester := req } addr 1 with firstBe := 0 } : Tlp) = t at *
      have hlen : t.length = 1 := by
        rw [← ht]
        obtain ⟨l1, l2, l3⟩ := setBe_len { fmt := if addr > 0xffffffff then 1 else 0, requester := req } addr 1 (by omega)
        have hlp : lastPad addr 1 = 3 - (addr + 1 + 3) % 4 := rfl
        show (setBe { fmt := if addr > 0xffffffff then 1 else 0, requester := req } addr 1).length = 1
        omega
      have hfb : t.firstBe = 0 := by rw [← ht]
      have hf : firstBeOffset t = 3 := by unfold firstBeOffset; rw [hfb]; rfl
      have hbc : beByteCount t = 1 := by
        have hl : lastBeOffset t = 0 := by unfold lastBeOffset; rw [hlen, hfb]; simp
        unfold beByteCount; rw [hlen, hf, hl]
      have hg : got = answer (withTag t tag) := (D.ops i _ hi).1.2
      rw [hans _ (by exact hin)] at hg
      have := (memory_read mps completer base mem hm t hin tag).2.2
      rw [← hg, hbc] at this
      rw [dmaReads] at hrest
      cases ps with
      | nil =>
        rw [collectAll, this]
        simp only [bind, Option.bind, pure, collectAll, if_true]
        rw [slice_nil _ _ _ (by omega)]
      | cons q qs => exact hrest.elim
  · have hml : max length 1 = length := by omega
    have e : readRequests mrrs req addr length = dmaReads mrrs req false length addr length := by unfold readRequests; rw [hml]; simp [hz]
    rw [e] at hj
    rw [hml] at h2
    rw [joined_read hm hb hs D hans mrrs req length addr length parts (Nat.le_refl _) h1 h2 hj]
    simp only [bind, Option.bind, pure]
    rw [if_neg hz, List.take_of_length_le (by rw [slice_length]; omega)]

/-! ### an example: 300 bytes from an odd address in a memory of 512, as three requests with two tags -/

def exMem : List Nat := (List.range 512).map (· * 7 % 256)
def exReqs : List (Nat × Tlp) := readRequests 0 {} 0x1003 300
/-- all three start; the third has to wait for a tag; the completions of the second request come first -/
def exEvents : List Ev :=
  exReqs.map (fun r => .spawn r.2 false) ++
  [.run 0, .run 1, .run 2, .run 1, .run 0, .arrive 0, .arrive 1, .run 1, .run 0, .arrive 1, .run 0, .run 2, .run 2, .arrive 0, .run 2, .arrive 1, .run 2, .arrive 0, .run 2]
def exFinal : St := run 2 (memory 0 {} 0x1000 exMem) St.init exEvents
def exParts : List (Nat × List Tlp) := (exReqs.zip exFinal.ops).map fun p => (p.1.1, match p.2.phase with | .done _ got => got | _ => [])

set_option maxRecDepth 100000 in
example : exReqs.map (fun r => [r.1, r.2.address, r.2.length]) = [[125, 0x1000, 32], [128, 0x1080, 32], [47, 0x1100, 12]] := by decide +kernel
set_option maxRecDepth 100000 in
example : exFinal.ops.map (fun o => match o.phase with | .done t got => [t, got.length] | _ => []) = [[1, 1], [0, 1], [1, 1]] := by decide +kernel
set_option maxRecDepth 100000 in
example : dmaResult 300 exParts = some (slice exMem 3 303) := by decide +kernel

end Corundum.Requester
