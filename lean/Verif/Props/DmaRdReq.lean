import Verif.Proof.DmaRdReq

/-! C72: how a DMA read operation is split into PCIe read requests. -/
namespace Corundum.DmaRd

theorem start_good {c : Cfg} {addr ram len : Nat} (h : Given c addr len) (hw : NoWrap c addr len) (hl : 0 < len) : Good c (start addr ram len) ∧ (start addr ram len).zero = false ∧
    (start addr ram len).cnt = len ∧ (start addr ram len).addr = addr ∧ (start addr ram len).ram = ram := by
  have : start addr ram len = ⟨addr, ram, len, false⟩ := by unfold start; rw [if_neg (by omega)]
  rw [this]
  exact ⟨⟨h.wide, hl, h.fits, hw, h.space⟩, rfl, rfl, rfl, rfl⟩

/-- the requests of an operation ask for exactly its bytes, in order, each within the maximum size and within a page, and none is empty;
the RAM address noted for each is where its last byte goes, plus one -/
theorem C72_cover (c : Cfg) (addr ram len n : Nat) (h : Given c addr len) (hw : NoWrap c addr len) (hp : ¬ PageEnd c addr len) (hl : 0 < len) (hn : len ≤ n) :
    ∃ ts, requests c n (start addr ram len) = some ts ∧ ts.flatMap Req.bytes = List.range' addr len ∧
      (∀ t ∈ ts, t.bytes ≠ [] ∧ t.Ok c ∧ t.zero = false) ∧
      ∀ (k : Nat) (t : Req), ts[k]? = some t → t.ramEnd = (ram + ((ts.take (k + 1)).flatMap Req.bytes).length) % 2 ^ c.raw := by
  obtain ⟨g, hz, hc, ha, hr⟩ := @start_good c addr ram len h hw hl
  obtain ⟨rs, w⟩ := walk_exists c len _ (by omega) g
  refine ⟨_, requests_walk c _ rs w (by rw [hc, ha]; exact hp) n (by omega), ?_, ?_, ?_⟩
  · rw [walk_bytes w hz, hc, ha]
  · intro t ht
    obtain ⟨x, hx, rfl⟩ := List.mem_map.1 ht
    obtain ⟨gx, zx⟩ := walk_zero w x hx
    refine ⟨?_, req_ok c x gx, zx.trans hz⟩
    rw [req_bytes c x gx (zx.trans hz)]
    have := (step_ok c x gx).pos
    intro e
    have := congrArg List.length e
    simp at this
    omega
  · intro k t ht
    have := walk_ram w hz k t ht
    rw [hr] at this
    exact this

/-- an operation of length zero is one request for one dword with no byte enabled, at the address given -/
theorem C72_zero_len (c : Cfg) (addr ram n : Nat) (h : Given c addr 0) (hlw : 1 ≤ c.lw) :
    ∃ t, requests c (n + 1) (start addr ram 0) = some [t] ∧ t.bytes = [] ∧ t.dwords = 1 ∧ t.dwAddr = addr / 4 ∧ t.zero = true ∧ t.Ok c := by
  have e : start addr ram 0 = ⟨addr, ram, 1, true⟩ := rfl
  have h13 : 2 ^ 13 ≤ 2 ^ max c.lw 13 := Nat.pow_le_pow_right (by omega) (by omega)
  have hl1 : 2 ^ 1 ≤ 2 ^ c.lw := Nat.pow_le_pow_right (by omega) hlw
  have hi := h.inside
  have g : Good c (start addr ram 0) := by
    rw [e]; exact ⟨h.wide, Nat.le_refl _, by show 1 < _; omega, by show 1 + addr % 4 < _; omega, by show addr + 1 ≤ _; omega⟩
  have s := step_ok c _ g
  have ht : tlpCount c (start addr ram 0) = 1 := by have := s.pos; have := s.le; rw [e] at *; dsimp only at *; omega
  have hd : dwordCount c (start addr ram 0) = 1 := by rw [s.dword, ht, e]; dsimp only; omega
  have hnw : ¬ Whole c (start addr ram 0) := by rintro ⟨_, h, _⟩; rw [e] at h; exact absurd h (by decide : (1 : Nat) ≠ 4096)
  have hla : lastTlp c (start addr ram 0) = true := (s.last hnw).2 ht
  refine ⟨req c (start addr ram 0), by simp [requests, hla], req_bytes_zero c _ g (by rw [e]) hd, by rw [req_dwords c _ g, hd], rfl, rfl, req_ok c _ g⟩

/-- the header credits set aside for a request are enough however the completer splits its answer; the data credits are at most one short,
and enough for every request but the last of the operation, and for requests at an address divisible by 16 -/
theorem C72_credits (c : Cfg) (addr ram len n : Nat) (ts : List Req) (h : Given c addr len) (hw : NoWrap c addr len) (hp : ¬ PageEnd c addr len) (hl : 0 < len) (hn : len ≤ n)
    (hts : requests c n (start addr ram len) = some ts) (t : Req) (ht : t ∈ ts) (ps : List Nat) (hs : t.Split c.boundary ps) :
    ps.length ≤ t.hfc ∧ dataCredits ps ≤ t.dfc + 1 ∧ (t ∈ ts.dropLast ∨ t.dwAddr % 4 = 0 → dataCredits ps ≤ t.dfc) := by
  obtain ⟨g, hz, hc, ha, hr⟩ := @start_good c addr ram len h hw hl
  obtain ⟨rs, w⟩ := walk_exists c len _ (by omega) g
  have e := requests_walk c _ rs w (by rw [hc, ha]; exact hp) n (by omega)
  rw [hts, Option.some.injEq] at e
  subst e
  obtain ⟨x, hx, rfl⟩ := List.mem_map.1 ht
  obtain ⟨gx, zx⟩ := walk_zero w x hx
  have := req_credits c x gx ps hs
  refine ⟨this.1, this.2.1, ?_⟩
  rintro (hd | hd)
  · rw [← List.map_dropLast] at hd
    obtain ⟨y, hy, hxy⟩ := List.mem_map.1 hd
    obtain ⟨gy, zy⟩ := walk_zero w y ((List.dropLast_sublist _).subset hy)
    have := req_credits c y gy ps (hxy ▸ hs)
    rw [hxy] at this
    exact this.2.2 (Or.inl (walk_dropLast w y hy))
  · exact this.2.2 (Or.inr hd)

/-- 16 bytes at address 56 may come as two completions of 8 bytes, which use two data credits; one is set aside -/
theorem C72_credits_counterexample : ∃ (c : Cfg) (t : Req) (ps : List Nat), Given c 56 16 ∧ NoWrap c 56 16 ∧ requests c 16 (start 56 0 16) = some [t] ∧
    t.Split c.boundary ps ∧ t.dfc < dataCredits ps := by
  refine ⟨⟨16, 64, 16, 2, false⟩, ⟨14, 4, 15, 15, 16, 2, 1, false⟩, [2, 2], ⟨by decide, by decide, by decide, by decide⟩, by decide, by decide, ⟨by decide, rfl, ?_⟩, by decide⟩
  intro k h1 h2
  have : k = 1 := by simp at h2; omega
  subst this
  rfl

/-- with requests of up to 4096 bytes, an operation of at least a page that ends at the end of a page is followed by a request for the whole next page,
under a RAM address that makes its data overwrite the last 4096 bytes of the buffer -/
theorem C72_page_end (c : Cfg) (addr ram len n : Nat) (h : Given c addr len) (hw : NoWrap c addr len) (hp : PageEnd c addr len) (hn : len ≤ n) :
    ∃ ts x, requests c n (start addr ram len) = some (ts ++ [x]) ∧ ts.flatMap Req.bytes = List.range' addr len ∧
      x.bytes = List.range' ((addr + len) % 2 ^ c.paw) 4096 ∧ x.ramEnd = (ram + len) % 2 ^ c.raw ∧ x.hfc = 0 ∧ x.dfc = 0 := by
  have hl : 0 < len := by have := hp.2.1; omega
  obtain ⟨g, hz, hc, ha, hr⟩ := @start_good c addr ram len h hw hl
  obtain ⟨rs, w⟩ := walk_exists c len _ (by omega) g
  refine ⟨_, _, requests_extra c _ rs w hz (by rw [hc, ha]; exact hp) n (by omega), ?_, ?_, ?_, rfl, rfl⟩
  · rw [walk_bytes w hz, hc, ha]
  · have hm : (addr + len) % 2 ^ c.paw % 4 = 0 := by
      have h1 := h.space
      have h2 := hp.2.2
      rcases Nat.lt_or_ge (addr + len) (2 ^ c.paw) with hh | hh
      · rw [Nat.mod_eq_of_lt hh]; omega
      · rw [show addr + len = 2 ^ c.paw by omega, Nat.mod_self]
    have hd : (extra c (start addr ram len)).dwAddr * 4 = (addr + len) % 2 ^ c.paw := by simp only [extra, hc, ha]; omega
    unfold Req.bytes
    rw [hd]
    have e : (List.range ((extra c (start addr ram len)).dwords * 4)).filter (fun o => ((extra c (start addr ram len)).be (o / 4)).testBit (o % 4)) = List.range' 0 4096 := by
      have : ∀ o ∈ List.range 4096, ((extra c (start addr ram len)).be (o / 4)).testBit (o % 4) = true := by
        intro o _
        have : (extra c (start addr ram len)).be (o / 4) = 15 := by
          unfold Req.be extra; dsimp only; split
          · rfl
          · split <;> rfl
        rw [this]
        exact all_bit ⟨o % 4, by omega⟩
      rw [show (extra c (start addr ram len)).dwords * 4 = 4096 from rfl, List.filter_eq_self.2 this, List.range_eq_range']
    rw [e, List.map_add_range', Nat.add_zero]
  · simp only [extra, hc, hr]

/-- when the length plus the offset in the first dword overflows the length field, the first request goes to the end of the page whatever the maximum request size -/
theorem C72_wrap (c : Cfg) (addr ram len n : Nat) (h13 : 13 ≤ c.lw) (h : Given c addr len) (hw : ¬ NoWrap c addr len) :
    (req c (start addr ram len)).dwords = 1024 - addr % 4096 / 4 ∧
      (128 * 2 ^ min c.mrrs 5 < 4096 - addr % 4096 → ¬ (req c (start addr ram len)).Ok c) := by
  have hf := h.fits
  unfold NoWrap at hw
  rw [show max c.lw 13 = c.lw by omega] at hw
  have hb : 2 ^ 13 ≤ 2 ^ c.lw := Nat.pow_le_pow_right (by omega) h13
  have e : start addr ram len = ⟨addr, ram, len, false⟩ := by unfold start; rw [if_neg (by omega)]
  have hs : small c (start addr ram len) = true := by
    rw [e]; unfold small
    dsimp only
    rw [show max c.lw 13 = c.lw by omega, Nat.mod_eq_sub_mod (by omega), Nat.mod_eq_of_lt (by omega)]
    have := dw_cases c
    simp only [decide_eq_true_eq]
    omega
  have hx : crossS (start addr ram len) = true := by
    rw [e]; unfold crossS
    simp only [Bool.or_eq_true, bne_iff_ne, ne_eq]
    omega
  have hd : dwordCount c (start addr ram len) = 1024 - addr % 4096 / 4 := by simp [dwordCount, hs, hx]; rw [e]
  have hD : (req c (start addr ram len)).dwords = 1024 - addr % 4096 / 4 := by
    unfold Req.dwords req
    dsimp only
    rw [hd]
    by_cases hz : addr % 4096 / 4 = 0
    · rw [hz]; rfl
    · rw [Nat.mod_eq_of_lt (by omega), if_neg (by omega)]
  refine ⟨hD, ?_⟩
  intro hm ho
  have := ho.max
  rw [hD] at this
  omega

/-- the hypotheses can be met: 1000 bytes at address 4000 with requests of 256 bytes; they become five requests -/
example : Given ⟨16, 64, 16, 1, false⟩ 4000 1000 ∧ NoWrap ⟨16, 64, 16, 1, false⟩ 4000 1000 ∧ ¬ PageEnd ⟨16, 64, 16, 1, false⟩ 4000 1000 ∧
    ((requests ⟨16, 64, 16, 1, false⟩ 1000 (start 4000 0 1000)).map List.length) = some 5 := by
  refine ⟨⟨by decide, by decide, by decide, by decide⟩, by decide, ?_, by decide⟩
  rintro ⟨h, _⟩; exact absurd h (by decide)

/-- the two exceptions can be met, with the widths corundum uses -/
example : Given ⟨16, 64, 16, 5, false⟩ 4096 8192 ∧ NoWrap ⟨16, 64, 16, 5, false⟩ 4096 8192 ∧ PageEnd ⟨16, 64, 16, 5, false⟩ 4096 8192 :=
  ⟨⟨by decide, by decide, by decide, by decide⟩, by decide, ⟨by decide, by decide, by decide⟩⟩

example : Given ⟨16, 64, 16, 2, false⟩ 1 65535 ∧ ¬ NoWrap ⟨16, 64, 16, 2, false⟩ 1 65535 :=
  ⟨⟨by decide, by decide, by decide, by decide⟩, by decide⟩

end Corundum.DmaRd
