import Verif.Proof.DmaRdCpl
import Verif.Props.DmaRdReq

/-! C73: the data of the completions goes to the right place of the RAM. -/
namespace Corundum.DmaRd

variable {Byte : Type}

theorem start_mod {N r n lo : Nat} (hN : 0 < N) (hlo : lo ≤ n) : ((r + n) % N + N - (n - lo) % N) % N = (r + lo) % N := by
  have h := @sub_modEq ((r + n) % N) N N hN (n - lo) hN (Nat.dvd_refl _)
  have h2 : (r + n) % N ≡ r + lo + (n - lo) [MOD N] := by
    rw [show r + lo + (n - lo) = r + n by omega]; exact Nat.mod_mod _ _
  have h3 := Nat.ModEq.add_right_cancel' (n - lo) (h.trans h2)
  have h4 : ((r + n) % N + N - (n - lo) % N) % N % N = (r + lo) % N := h3
  rw [Nat.mod_mod] at h4
  exact h4

/-- a successful completion for bytes `lo` to `hi - 1` of a request for `n` bytes, whose part of the buffer starts at `r`, sets the bytes of the RAM at `r + lo` to `r + hi - 1`
(modulo the size of the RAM) to those bytes of host memory and changes nothing else in any RAM; it is taken for the last completion exactly if it is -/
theorem C73_completion (p : Ram) (hp : p.Ok) (host : Nat → Byte) (a n lo hi r sel : Nat) (h : Part a n lo hi) (hn : n ≤ 2 ^ p.aw) (mem : Nat → Nat → Byte) :
    let mem' := applyAll p (writes p ((r + n) % 2 ^ p.aw) sel (answer a n lo hi) (answerData host a lo)) mem
    (∀ k, lo ≤ k → k < hi → mem' sel ((r + k) % 2 ^ p.aw) = host (a + k)) ∧
    (∀ s x, x < 2 ^ p.aw → (s = sel → ∀ k, lo ≤ k → k < hi → x ≠ (r + k) % 2 ^ p.aw) → mem' s x = mem s x) ∧
    finalCpl (answer a n lo hi) = decide (hi = n) := by
  obtain ⟨M, z⟩ := sizes p hp
  have hN : 0 < 2 ^ p.aw := Nat.two_pow_pos _
  have hs := answer_sets z host a n lo hi ((r + n) % 2 ^ p.aw) sel h
  have h1 := h.lt
  have h2 := h.le
  rw [start_mod hN (by omega)] at hs
  have hs := sets_mod hs
  refine ⟨?_, ?_, (answer_final h).1⟩
  · intro k hk1 hk2
    rcases hs mem sel _ (Nat.mod_lt (r + k) hN) with ⟨_, j, hj, hxj, hv⟩ | ⟨hn', _⟩
    · rw [hv]
      show host (a + lo + j) = host (a + k)
      have : r + lo + j = r + k := by
        have h3 : r + k ≡ r + lo + j [MOD 2 ^ p.aw] := hxj
        rw [show r + k = (r + lo) + (k - lo) by omega] at h3
        have h4 : k - lo ≡ j [MOD 2 ^ p.aw] := Nat.ModEq.add_left_cancel' (r + lo) h3
        have h5 : (k - lo) % 2 ^ p.aw = j % 2 ^ p.aw := h4
        rw [Nat.mod_eq_of_lt (by omega), Nat.mod_eq_of_lt (by omega)] at h5
        omega
      rw [show a + lo + j = a + k by omega]
    · exact absurd rfl (by
        have := hn' rfl (k - lo) (by omega)
        rw [show r + lo + (k - lo) = r + k by omega] at this
        exact this)
  · intro s x hx hne
    rcases hs mem s x hx with ⟨hs', j, hj, hxj, _⟩ | ⟨_, hv⟩
    · exact absurd hxj (by
        have := hne hs' (lo + j) (by omega) (by omega)
        rw [← Nat.add_assoc] at this
        exact this)
    · exact hv

/-- the RAMs after a list of completions, each for a part of a request -/
def afterCpls (p : Ram) (sel : Nat) (host : Nat → Byte) (cs : List (Req × Nat × Nat)) (mem : Nat → Nat → Byte) : Nat → Nat → Byte :=
  cs.foldl (fun m c => applyAll p (writes p c.1.ramEnd sel (answer (c.1.bytes.headD 0) c.1.bytes.length c.2.1 c.2.2) (answerData host (c.1.bytes.headD 0) c.2.1)) m) mem

theorem split_bytes {ts : List Req} {addr len : Nat} (h : ts.flatMap Req.bytes = List.range' addr len) (k : Nat) (t : Req) (ht : ts[k]? = some t) :
    t.bytes = List.range' (addr + ((ts.take k).flatMap Req.bytes).length) t.bytes.length ∧
      ((ts.take k).flatMap Req.bytes).length + t.bytes.length ≤ len ∧
      ((ts.take (k + 1)).flatMap Req.bytes).length = ((ts.take k).flatMap Req.bytes).length + t.bytes.length := by
  obtain ⟨hk, hkt⟩ := List.getElem?_eq_some_iff.1 ht
  have hsplit : ts = ts.take k ++ t :: ts.drop (k + 1) := by
    rw [← hkt, ← List.drop_eq_getElem_cons hk]; exact (List.take_append_drop k ts).symm
  have e : (ts.take k).flatMap Req.bytes ++ (t.bytes ++ (ts.drop (k + 1)).flatMap Req.bytes) = List.range' addr len := by
    rw [← h]; conv_rhs => rw [hsplit]
    simp
  have hl := congrArg List.length e
  simp only [List.length_append, List.length_range'] at hl
  refine ⟨?_, by omega, ?_⟩
  · generalize ((ts.take k).flatMap Req.bytes) = A at *
    generalize (ts.drop (k + 1)).flatMap Req.bytes = C at *
    have e2 : List.range' addr len = List.range' addr A.length ++ (List.range' (addr + A.length) t.bytes.length ++ List.range' (addr + A.length + t.bytes.length) C.length) := by
      rw [List.range'_append_1, List.range'_append_1]; congr 1; omega
    have i1 := (List.append_inj (e.trans e2) (by simp)).2
    exact (List.append_inj i1 (by simp)).1
  · have : ts.take (k + 1) = ts.take k ++ [t] := by rw [List.take_succ_eq_append_getElem hk, hkt]
    rw [this]; simp

theorem op_inv (p : Ram) (hp : p.Ok) (host : Nat → Byte) (sel addr ram len : Nat) (hlen : len ≤ 2 ^ p.aw) (ts : List Req) (hb : ts.flatMap Req.bytes = List.range' addr len)
    (hr : ∀ (k : Nat) (t : Req), ts[k]? = some t → t.ramEnd = (ram + ((ts.take (k + 1)).flatMap Req.bytes).length) % 2 ^ p.aw) :
    ∀ (cs : List (Req × Nat × Nat)), (∀ c ∈ cs, c.1 ∈ ts ∧ Part (c.1.bytes.headD 0) c.1.bytes.length c.2.1 c.2.2) → ∀ (mem : Nat → Nat → Byte),
      (∀ k, k < len → afterCpls p sel host cs mem sel ((ram + k) % 2 ^ p.aw) = host (addr + k) ∨
        afterCpls p sel host cs mem sel ((ram + k) % 2 ^ p.aw) = mem sel ((ram + k) % 2 ^ p.aw) ∧ ∀ c ∈ cs, ∀ i, c.2.1 ≤ i → i < c.2.2 → c.1.bytes[i]? ≠ some (addr + k)) ∧
      (∀ s x, x < 2 ^ p.aw → (s = sel → ∀ k, k < len → x ≠ (ram + k) % 2 ^ p.aw) → afterCpls p sel host cs mem s x = mem s x) := by
  intro cs
  induction cs with
  | nil => intro _ mem; exact ⟨fun k _ => Or.inr ⟨rfl, by simp⟩, fun s x _ _ => rfl⟩
  | cons c cs ih =>
    intro hc mem
    obtain ⟨ht, hpart⟩ := hc c (by simp)
    obtain ⟨i, hi⟩ := List.mem_iff_getElem?.1 ht
    obtain ⟨s1, s2, s3⟩ := split_bytes hb i c.1 hi
    have hE := hr i c.1 hi
    generalize hB : ((ts.take i).flatMap Req.bytes).length = B at s1 s2 s3
    rw [s3, ← Nat.add_assoc] at hE
    have hlt := hpart.lt
    have hle := hpart.le
    have hhead : c.1.bytes.headD 0 = addr + B := by
      rw [s1]
      obtain ⟨m, hm⟩ : ∃ m, c.1.bytes.length = m + 1 := ⟨c.1.bytes.length - 1, by omega⟩
      rw [hm, List.range'_succ]; rfl
    have step := C73_completion p hp host (addr + B) c.1.bytes.length c.2.1 c.2.2 (ram + B) sel (hhead ▸ hpart) (by omega) mem
    rw [← hE, ← hhead] at step
    obtain ⟨st1, st2, _⟩ := step
    generalize hm1 : applyAll p (writes p c.1.ramEnd sel (answer (c.1.bytes.headD 0) c.1.bytes.length c.2.1 c.2.2) (answerData host (c.1.bytes.headD 0) c.2.1)) mem = mem1 at st1 st2
    have hfold : afterCpls p sel host (c :: cs) mem = afterCpls p sel host cs mem1 := by
      unfold afterCpls; rw [List.foldl_cons, hm1]
    obtain ⟨ih1, ih2⟩ := ih (fun d hd => hc d (by simp [hd])) mem1
    rw [hfold]
    constructor
    · intro k hk
      rcases ih1 k hk with h | ⟨h, hn⟩
      · left; exact h
      · by_cases hin : B + c.2.1 ≤ k ∧ k < B + c.2.2
        · left
          rw [h]
          have := st1 (k - B) (by omega) (by omega)
          rw [show ram + B + (k - B) = ram + k by omega, hhead, show addr + B + (k - B) = addr + k by omega] at this
          exact this
        · right
          refine ⟨?_, ?_⟩
          · rw [h]
            apply st2 sel _ (Nat.mod_lt _ (Nat.two_pow_pos _))
            intro _ j hj1 hj2 heq
            have h3 : ram + k ≡ ram + (B + j) [MOD 2 ^ p.aw] := by rw [← Nat.add_assoc]; exact heq
            have h5 : k % 2 ^ p.aw = (B + j) % 2 ^ p.aw := Nat.ModEq.add_left_cancel' ram h3
            rw [Nat.mod_eq_of_lt (by omega), Nat.mod_eq_of_lt (by omega)] at h5
            omega
          · intro d hd i hi1 hi2
            rcases List.mem_cons.1 hd with rfl | hd
            · rw [s1]
              intro hh
              have := List.getElem?_eq_some_iff.1 hh
              obtain ⟨_, this⟩ := this
              rw [List.getElem_range'] at this
              omega
            · exact hn d hd i hi1 hi2
    · intro s x hx hne
      rw [ih2 s x hx hne]
      apply st2 s x hx
      intro hs j hj1 hj2
      have := hne hs (B + j) (by omega)
      rw [← Nat.add_assoc] at this
      exact this

/-- a whole operation: whatever the completions to its requests and whatever their order, once every byte has been answered the buffer holds the bytes of host memory; nothing outside the buffer changes, and
before that every byte of the buffer is either as it was or as in host memory -/
theorem C73_operation (c : Cfg) (p : Ram) (hp : p.Ok) (hraw : c.raw = p.aw) (host : Nat → Byte) (sel addr ram len n : Nat) (ts : List Req)
    (h : Given c addr len) (hw : NoWrap c addr len) (hpe : ¬ PageEnd c addr len) (hl : 0 < len) (hlen : len ≤ 2 ^ p.aw) (hn : len ≤ n)
    (hts : requests c n (start addr ram len) = some ts)
    (cs : List (Req × Nat × Nat)) (hcs : ∀ d ∈ cs, d.1 ∈ ts ∧ Part (d.1.bytes.headD 0) d.1.bytes.length d.2.1 d.2.2) (mem : Nat → Nat → Byte) :
    (∀ s x, x < 2 ^ p.aw → (s = sel → ∀ k, k < len → x ≠ (ram + k) % 2 ^ p.aw) → afterCpls p sel host cs mem s x = mem s x) ∧
    (∀ k, k < len → afterCpls p sel host cs mem sel ((ram + k) % 2 ^ p.aw) = host (addr + k) ∨
      afterCpls p sel host cs mem sel ((ram + k) % 2 ^ p.aw) = mem sel ((ram + k) % 2 ^ p.aw)) ∧
    ((∀ t ∈ ts, ∀ i, i < t.bytes.length → ∃ d ∈ cs, d.1 = t ∧ d.2.1 ≤ i ∧ i < d.2.2) →
      ∀ k, k < len → afterCpls p sel host cs mem sel ((ram + k) % 2 ^ p.aw) = host (addr + k)) := by
  obtain ⟨ts', e, hb, _, hr⟩ := C72_cover c addr ram len n h hw hpe hl hn
  rw [hts, Option.some.injEq] at e
  subst e
  rw [hraw] at hr
  obtain ⟨i1, i2⟩ := op_inv p hp host sel addr ram len hlen ts hb hr cs hcs mem
  refine ⟨i2, fun k hk => (i1 k hk).imp id And.left, ?_⟩
  intro hall k hk
  rcases i1 k hk with h | ⟨_, hn⟩
  · exact h
  · exfalso
    have hmem : addr + k ∈ ts.flatMap Req.bytes := by rw [hb, List.mem_range'_1]; omega
    obtain ⟨t, ht, hkt⟩ := List.mem_flatMap.1 hmem
    obtain ⟨i, hi⟩ := List.mem_iff_getElem?.1 hkt
    have hil : i < t.bytes.length := (List.getElem?_eq_some_iff.1 hi).1
    obtain ⟨d, hd, rfl, hd1, hd2⟩ := hall t ht i hil
    exact hn d hd i hd1 hd2 hi

/-- in the case of `C72_page_end`, once the extra request is answered the last 4096 bytes of the buffer hold the page after the one that was asked for, whatever was written before -/
theorem C73_page_end (c : Cfg) (p : Ram) (hp : p.Ok) (hraw : c.raw = p.aw) (host : Nat → Byte) (sel addr ram len n : Nat)
    (h : Given c addr len) (hw : NoWrap c addr len) (hpe : PageEnd c addr len) (hlen : len ≤ 2 ^ p.aw) (hn : len ≤ n) :
    ∃ ts x, requests c n (start addr ram len) = some (ts ++ [x]) ∧ ∀ mem : Nat → Nat → Byte, ∀ k, k < 4096 →
      afterCpls p sel host [(x, 0, 4096)] mem sel ((ram + len - 4096 + k) % 2 ^ p.aw) = host ((addr + len) % 2 ^ c.paw + k) := by
  obtain ⟨ts, x, e1, e2, e3, e4, _, _⟩ := C72_page_end c addr ram len n h hw hpe hn
  refine ⟨ts, x, e1, ?_⟩
  intro mem k hk
  have hl : 4096 ≤ len := hpe.2.1
  have hlx : x.bytes.length = 4096 := by rw [e3, List.length_range']
  have hh : x.bytes.headD 0 = (addr + len) % 2 ^ c.paw := by rw [e3]; exact (fun m a => rfl : ∀ m a, (List.range' a (m + 1)).headD 0 = a) 4095 _
  have hE : x.ramEnd = (ram + len - 4096 + 4096) % 2 ^ p.aw := by rw [e4, hraw, show ram + len - 4096 + 4096 = ram + len by omega]
  have := (C73_completion p hp host ((addr + len) % 2 ^ c.paw) 4096 0 4096 (ram + len - 4096) sel ⟨by omega, by omega, Or.inl rfl⟩ (by omega) mem).1 k (by omega) hk
  rw [← hE, ← hlx, ← hh] at this
  rw [← hh]
  unfold afterCpls
  simp only [List.foldl_cons, List.foldl_nil]
  rw [hlx] at this ⊢
  exact this

/-- the hypotheses can be met: two segments of 8 bytes with an 8 byte bus, a RAM of 64 KiB; 24 bytes at 60 are answered in two parts -/
example : (⟨2, 8, 16⟩ : Ram).Ok ∧ Part 60 24 0 4 ∧ Part 60 24 4 24 :=
  ⟨⟨⟨0, 3, rfl, rfl, by decide, by decide⟩⟩, ⟨by omega, by omega, by omega⟩, ⟨by omega, by omega, by omega⟩⟩

end Corundum.DmaRd
