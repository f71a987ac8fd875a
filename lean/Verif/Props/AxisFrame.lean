import Verif.Proof.AxisFrame
/-! C24 — AXI stream frames survive bus packing, and the source/sink pair delivers them in order. -/
namespace Corundum.AxisFrame

/-- C24: for every lane count, lane width and frame, `build` succeeds, produces `ceil(n/M)` beats, and `parse` returns
the words of the frame. -/
theorem C24_pack_roundtrip (M WL : Nat) (hM : 1 ≤ M) (f : List Nat) (hf : ∀ x ∈ f, x < 2 ^ WL) :
    ∃ bs, build M WL f = some bs ∧ parse M WL bs = f ∧ bs.length = (f.length + M - 1) / M := by
  obtain ⟨bs, h1, h2, _, h4⟩ := build_spec M WL hM f.length f (Nat.le_refl _) hf
  exact ⟨bs, h1, h2, h4⟩

/-- C24: every beat uses a nonempty run of lanes starting at lane 0 (`tkeep = 2^c - 1`), and every beat but the last
uses all `M` lanes. -/
theorem C24_keep (M WL : Nat) (hM : 1 ≤ M) (f : List Nat) (hf : ∀ x ∈ f, x < 2 ^ WL) (bs : List (Nat × Nat))
    (hb : build M WL f = some bs) (i : Nat) (hi : i < bs.length) :
    ∃ c, 1 ≤ c ∧ c ≤ M ∧ bs[i].2 = 2 ^ c - 1 ∧ (i + 1 < bs.length → c = M) := by
  obtain ⟨bs', h1, _, h3, _⟩ := build_spec M WL hM f.length f (Nat.le_refl _) hf
  have : bs = bs' := by
    have h1' : build M WL f = some bs' := h1
    rw [hb] at h1'; exact Option.some.inj h1'
  subst this
  have hsplit : bs = bs.take i ++ bs[i] :: bs.drop (i + 1) := by
    rw [← List.drop_eq_getElem_cons hi, List.take_append_drop]
  rw [hsplit] at h3
  obtain ⟨c, c1, c2, c3, c4⟩ := good_mid _ _ _ h3 hM
  refine ⟨c, c1, c2, c3, fun h => c4 ?_⟩
  rw [List.isEmpty_eq_false_iff]
  intro hd
  have := congrArg List.length hd
  simp only [List.length_drop, List.length_nil] at this
  omega

/-- C24: in every execution of a source connected to a sink, with any pattern of pauses on both sides, the frames
delivered are a prefix of the frames sent (same words, same order, none duplicated or dropped) and no assertion of the
sink fails. -/
theorem C24_delivery (M WL : Nat) (hM : 1 ≤ M) (ops : List Op) (hf : ∀ f, Op.send f ∈ ops → f ≠ [] ∧ ∀ x ∈ f, x < 2 ^ WL) :
    (run M WL init ops).out <+: ops.filterMap (fun | .send f => some f | _ => none) ∧ (run M WL init ops).error = false := by
  have hs : ∀ l : List Op, l.filterMap (fun | .send f => some f | _ => none) = sent l := by
    intro l
    induction l with
    | nil => rfl
    | cons o l ih => cases o <;> simp [sent, ih]
  have hmem : ∀ l : List Op, ∀ f ∈ sent l, Op.send f ∈ l := by
    intro l
    induction l with
    | nil => intro f h; simp [sent] at h
    | cons o l ih =>
      intro f h
      cases o with
      | send g =>
        simp only [sent, List.mem_cons] at h
        rcases h with rfl | h
        · simp
        · simp [ih f h]
      | clk a b => simp [ih f h]
  have h := inv_run hM ops init [] (inv_init M WL) (fun f h => hf f (hmem ops f (by simpa using h)))
  rw [hs]
  simp only [List.nil_append] at h
  refine ⟨?_, h.err⟩
  cases ha : (run M WL init ops).active with
  | false => exact ⟨_, (h.idle ha).2.2.symm⟩
  | true => obtain ⟨fr, bs, _, _, _, _, _, h6⟩ := h.act ha; exact ⟨_, h6.symm⟩

/-- C24: after any execution, enough clock edges without pauses deliver every frame sent. -/
theorem C24_drains (M WL : Nat) (hM : 1 ≤ M) (ops : List Op) (hf : ∀ f, Op.send f ∈ ops → f ≠ [] ∧ ∀ x ∈ f, x < 2 ^ WL) :
    ∃ n, ∀ m, n ≤ m → (run M WL init (ops ++ List.replicate m (.clk false false))).out =
      ops.filterMap (fun | .send f => some f | _ => none) := by
  have hs : ∀ l : List Op, l.filterMap (fun | .send f => some f | _ => none) = sent l := by
    intro l
    induction l with
    | nil => rfl
    | cons o l ih => cases o <;> simp [sent, ih]
  have hmem : ∀ l : List Op, ∀ f ∈ sent l, Op.send f ∈ l := by
    intro l
    induction l with
    | nil => intro f h; simp [sent] at h
    | cons o l ih =>
      intro f h
      cases o with
      | send g =>
        simp only [sent, List.mem_cons] at h
        rcases h with rfl | h
        · simp
        · simp [ih f h]
      | clk a b => simp [ih f h]
  have hL : ∀ f ∈ sent ops, f ≠ [] ∧ ∀ x ∈ f, x < 2 ^ WL := fun f h => hf f (hmem ops f h)
  have h := inv_run hM ops init [] (inv_init M WL) (by simpa using hL)
  simp only [List.nil_append] at h
  refine ⟨mu M (run M WL init ops), fun m hm => ?_⟩
  rw [hs, run, List.foldl_append]
  exact drain hM hL m _ h (.inl hm)

/-- hypotheses are met by a real run: a 5-word frame over 4 lanes and a one-word frame, with pauses -/
example : (run 4 8 init ([.send [1, 2, 3, 4, 5], .send [255], .clk false false, .clk false true, .clk true false, .clk false false,
    .clk false false, .clk false false])).out = [[1, 2, 3, 4, 5], [255]] := by decide
example : build 4 8 [1, 2, 3, 4, 5] = some [(0x04030201, 15), (5, 1)] := by decide

end Corundum.AxisFrame
