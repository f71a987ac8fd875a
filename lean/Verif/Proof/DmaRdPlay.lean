import Verif.Spec.DmaRd

/-! Runs of the DMA read interface given by a list of commands, for examples. -/
namespace Corundum.DmaRd

inductive Cmd
  | accept (d : Desc)
  | issue
  | opTag
  | tag (t : Nat)
  /-- the next bytes of the request, up to `hi` -/
  | ans (t hi : Nat)
  /-- the answer to a request for no bytes -/
  | zero (t : Nat)
  | beat
  | err (t code : Nat)
  | release
  | done (n : Nat)
  | pop

section
variable {Byte : Type} (host : Nat → Byte)

def Cmd.ev (s : St Byte) : Cmd → Ev Byte
  | .accept d => .accept d
  | .issue => .issue
  | .opTag => .opTag
  | .tag t => .tag t
  | .ans t hi => .cpl t (answer ((s.ent t).r.bytes.headD 0) (s.ent t).r.bytes.length (s.prog t) hi) (answerData host ((s.ent t).r.bytes.headD 0) (s.prog t))
  | .zero t => .cpl t ⟨1, 1, 0⟩ (answerData host 0 0)
  | .beat => .beat
  | .err t code => .err t code
  | .release => .release
  | .done n => .done n
  | .pop => .pop

def fineB (c : Cfg) (p : Ram) (d : Desc) : Bool :=
  decide (12 ≤ c.paw) && decide (d.len < 2 ^ c.lw) && decide (d.addr + d.len ≤ 2 ^ c.paw) && decide (d.addr < 2 ^ c.paw) && decide (d.len + d.addr % 4 < 2 ^ max c.lw 13) &&
    decide (¬ (5 ≤ c.mrrs ∧ 4096 ≤ d.len ∧ (d.addr + d.len) % 4096 = 0)) && decide (1 ≤ c.lw) && decide (c.raw = p.aw) && decide (d.len ≤ 2 ^ p.aw)

theorem fineB_ok {c : Cfg} {p : Ram} {d : Desc} (h : fineB c p d = true) : Fine c p d := by
  simp only [fineB, Bool.and_eq_true, decide_eq_true_eq] at h
  obtain ⟨⟨⟨⟨⟨⟨⟨⟨h1, h2⟩, h3⟩, h4⟩, h5⟩, h6⟩, h7⟩, h8⟩, h9⟩ := h
  exact ⟨⟨h1, h2, h3, h4⟩, h5, h6, h7, h8, h9⟩

def Cmd.ok (c : Cfg) (p : Ram) (s : St Byte) : Cmd → Bool
  | .accept d => fineB c p d && s.busy.all fun o => (s.desc o).sel != d.sel
  | .ans t hi => decide (t ∈ s.outs) && !(s.ent t).r.zero && decide (s.prog t < hi) && decide (hi ≤ (s.ent t).r.bytes.length) &&
      decide (hi = (s.ent t).r.bytes.length ∨ ((s.ent t).r.bytes.headD 0 + hi) % 64 = 0)
  | .zero t => decide (t ∈ s.outs) && (s.ent t).r.zero
  | .err t _ => decide (t ∈ s.outs)
  | _ => true

theorem ok_legal {c : Cfg} {p : Ram} {s : St Byte} (x : Cmd) (h : x.ok c p s = true) : Legal c p host s (x.ev host s) := by
  cases x with
  | accept d =>
    simp only [Cmd.ok, Bool.and_eq_true, List.all_eq_true, bne_iff_ne] at h
    exact ⟨fineB_ok h.1, fun o ho z y h1 h2 => h.2 o ho (h1.1.symm.trans h2.1)⟩
  | ans t hi =>
    simp only [Cmd.ok, Bool.and_eq_true, decide_eq_true_eq, Bool.not_eq_true'] at h
    refine ⟨h.1.1.1.1, ?_⟩
    rw [if_neg (by simp [h.1.1.1.2])]
    exact ⟨hi, ⟨h.1.1.2, h.1.2, h.2⟩, rfl, rfl⟩
  | zero t =>
    simp only [Cmd.ok, Bool.and_eq_true, decide_eq_true_eq] at h
    refine ⟨h.1, ?_⟩
    rw [if_pos h.2]
    exact ⟨rfl, rfl⟩
  | err t code =>
    simp only [Cmd.ok, decide_eq_true_eq] at h
    exact h
  | issue => trivial
  | opTag => trivial
  | tag t => trivial
  | beat => trivial
  | release => trivial
  | done n => trivial
  | pop => trivial

def play (w : Nat) (c : Cfg) (p : Ram) : List Cmd → St Byte → Option (St Byte)
  | [], s => some s
  | x :: xs, s => if x.ok c p s then (step w c p s (x.ev host s)).bind (play w c p xs) else none

theorem play_reach {w ow : Nat} {c : Cfg} {p : Ram} {mem : Nat → Nat → Byte} {host : Nat → Byte} : ∀ (xs : List Cmd) {s s' : St Byte}, Reach w ow c p host mem s → play host w c p xs s = some s' → Reach w ow c p host mem s'
  | [], s, s', h, hp => by
    have : s = s' := Option.some.inj hp
    rw [← this]; exact h
  | x :: xs, s, s', h, hp => by
    unfold play at hp
    split at hp
    · rename_i hok
      cases hs : step w c p s (x.ev host s) with
      | none => rw [hs] at hp; exact absurd hp (by simp)
      | some s1 =>
        rw [hs] at hp
        exact play_reach xs (Reach.step s s1 _ h (ok_legal host x hok) hs) hp
    · exact absurd hp (by simp)

end

end Corundum.DmaRd
