import Verif.Proof.TxEngineOut

/-! C66: the transmit engine. -/
namespace Corundum.TxEngine
open Corundum.CplWrite Corundum.Driver

/-! ### More lemmas -/

section
variable {P : Params} {s : S} {g : G} {i : In}

theorem tx_row (h : Inv P s g) (ht : g.txn < g.reqs.length) : (at_ P s s.txp).active = true ∧ decide (s.txp ≠ s.start) = true ∧
    Fit P (view g g.txn) (at_ P s s.txp) := by
  have hf : g.fin ≤ g.txn := Nat.le_trans h.le1 h.le2
  have fit := row_at h hf ht
  rw [← h.p2] at fit
  refine ⟨fit.active, ?_, fit⟩
  rw [h.p1, h.p2, ptr_ne h hf h.le3 (Nat.le_refl _)]
  exact decide_eq_true ht

theorem tx_skip (h : Inv P s g) (hb : g.bad g.txn = true) : txAct P s = .skip := by
  obtain ⟨r, hr, hok⟩ := bad_some hb
  obtain ⟨a1, a2, fit⟩ := tx_row h (resp_lt h hr)
  unfold txAct
  have : (at_ P s s.txp).invalid = true := by rw [fit.inv]; exact hb
  simp only [a1, a2, this, Bool.and_self, if_true]

theorem tx_goes (h : Inv P s g) (hg : g.good g.txn = true) (hc : complete (g.descs g.txn) = true) (hr : g.rep g.txn = reads (g.descs g.txn))
    (hv : s.txValid = false) (hcs : s.csValid = false) : txAct P s = .go := by
  obtain ⟨r, hr', hok⟩ := good_some hg
  obtain ⟨a1, a2, fit⟩ := tx_row h (resp_lt h hr')
  have hne : g.descs g.txn ≠ [] := by intro e; rw [e] at hc; cases hc
  unfold txAct
  have h1 : (at_ P s s.txp).invalid = false := by rw [fit.inv]; exact good_not_bad hg
  have h2 : (at_ P s s.txp).descFetched = true := by rw [fit.fetched]; exact hc
  have h3 : (at_ P s s.txp).commit = true := by rw [fit.commit hne]; exact hc
  have h4 : (at_ P s s.txp).cntS = (at_ P s s.txp).cntF := by
    rw [fit.cnt hne]
    show ((at_ P s s.txp).cntF + (reads (g.descs g.txn) - g.rep g.txn)) % _ = _
    rw [hr, Nat.sub_self, Nat.add_zero, Nat.mod_eq_of_lt fit.cntF]
  simp only [a1, a2, h1, h2, h3, h4, hv, hcs, Bool.and_self, if_true, Bool.false_eq_true, if_false, beq_self_eq_true, Bool.not_false, Bool.true_or]

theorem rep_stays (h : Inv P s g) (hl : Legal P g i) {k : Nat} (hc : complete (g.descs k) = true) (hr : g.rep k = reads (g.descs k)) :
    (watch P s g i).rep k = reads ((watch P s g i).descs k) := by
  show g.rep k + (eFor g i.rstat k).toNat = reads (g.descs k ++ (eBeat P s g i k).toList)
  rw [beat_none h hl hc, done_none h hl hr, hr, Option.toList_none, List.append_nil]; rfl

end

theorem txn_run {P : Params} (is : List In) : ∀ (x : Sys), x.g.txn ≤ (run P x is).g.txn := by
  induction is with
  | nil => intro x; exact Nat.le_refl _
  | cons i is ih =>
    intro x
    refine Nat.le_trans ?_ (ih (step P x i))
    show x.g.txn ≤ if txAct P x.s = .wait then x.g.txn else x.g.txn + 1
    split <;> omega

/-- a packet that is ready is handed over soon -/
theorem hand_over {P : Params} {k : Nat} (is : List In) : ∀ {x : Sys}, All P x → x.g.good k = true → complete (x.g.descs k) = true →
    x.g.rep k = reads (x.g.descs k) → (∀ j, j < k → x.g.bad j = true ∨ x.g.took j = true) → LegalRun P x is → (∀ i ∈ is, i.csReady = true) →
    k + 1 - x.g.txn + x.s.csValid.toNat ≤ is.length → k < (run P x is).g.txn := by
  induction is with
  | nil => intro x h _ _ _ _ _ _ hn; have hn : k + 1 - x.g.txn + x.s.csValid.toNat ≤ 0 := hn; show k < x.g.txn; omega
  | cons i is ih =>
    intro x h h1 h2 h3 h4 hl hcs hn
    have hn : k + 1 - x.g.txn + x.s.csValid.toNat ≤ is.length + 1 := hn
    have hl' : Legal P x.g i := hl.1
    have hr := hcs i List.mem_cons_self
    have hrun := txn_run (P := P) is (step P x i)
    have htx : (step P x i).g.txn = if txAct P x.s = .wait then x.g.txn else x.g.txn + 1 := rfl
    show k < (run P (step P x i) is).g.txn
    have go : txAct P x.s ≠ .go → k + 1 - (step P x i).g.txn ≤ is.length → k < (run P (step P x i) is).g.txn := by
      intro ha hlen
      refine ih (all_step h hl.1) (good_mono hl' h1) (complete_mono h2) (rep_stays h.inv hl' h2 h3) ?_ hl.2
        (fun j hj => hcs j (List.mem_cons_of_mem _ hj)) ?_
      · intro j hj
        rcases h4 j hj with hb | hb
        · exact Or.inl (bad_mono hl' hb)
        · right; show (x.g.took j || _) = true; rw [hb]; rfl
      · show _ + (if (decide (txAct P x.s = .go) && P.csum) = true then true else x.s.csValid && !i.csReady).toNat ≤ _
        rw [hr, Bool.not_true, Bool.and_false, decide_eq_false ha, Bool.false_and]
        exact hlen
    rcases Nat.lt_trichotomy x.g.txn k with hlt | heq | hgt
    · have hb : x.g.bad x.g.txn = true := by
        rcases h4 _ hlt with hb | hb
        · exact hb
        · have := (h.inv.tk _ hb).1; omega
      have ha := tx_skip h.inv hb
      refine go (by rw [ha]; decide) ?_
      rw [htx, ha]
      show k + 1 - (x.g.txn + 1) ≤ _
      omega
    · subst heq
      have hv : x.s.txValid = false := by
        cases hv : x.s.txValid with
        | false => rfl
        | true =>
          obtain ⟨j, j1, j2, j3, j4, j5⟩ := h.inv.ofT hv
          rcases h4 j j2 with hb | hb
          · rw [bad_good hb] at j3; cases j3
          · rw [j4] at hb; cases hb
      by_cases ha : txAct P x.s = .go
      · rw [htx, ha] at hrun
        exact hrun
      · cases hc : x.s.csValid with
        | false => exact absurd (tx_goes h.inv h1 h2 h3 hv hc) ha
        | true =>
          refine go ha ?_
          rw [hc] at hn
          have hn : x.g.txn + 1 - x.g.txn + 1 ≤ is.length + 1 := hn
          rw [htx]; split <;> omega
    · have : x.g.txn ≤ (step P x i).g.txn := by rw [htx]; split <;> omega
      omega

theorem countP_full {α : Type} {p q : α → Bool} (l : List α) (h : l.countP q ≤ l.countP (fun a => q a && p a)) : ∀ a ∈ l, q a = true → p a = true := by
  induction l with
  | nil => intro a ha; cases ha
  | cons x xs ih =>
    have hle : xs.countP (fun a => q a && p a) ≤ xs.countP q := List.countP_mono_left fun a _ ha => by rw [Bool.and_eq_true] at ha; exact ha.1
    rw [List.countP_cons, List.countP_cons] at h
    intro a ha hq
    cases hqx : q x with
    | false =>
      rw [hqx] at h
      rcases List.mem_cons.mp ha with e | e
      · subst e; rw [hqx] at hq; cases hq
      · exact ih (by simpa using h) a e hq
    | true =>
      cases hpx : p x with
      | false => rw [hqx, hpx] at h; simp at h; omega
      | true =>
        rw [hqx, hpx] at h
        rcases List.mem_cons.mp ha with e | e
        · subst e; exact hpx
        · exact ih (by simpa using h) a e hq

theorem tiles_cover (os : List BufRing.Op) : ∀ {b e : Nat}, BufRing.Tiles b os e → ∀ a, b ≤ a → a < e → ∃ o ∈ os, o.addr ≤ a ∧ a < o.addr + o.data.length := by
  induction os with
  | nil => intro b e h a h1 h2; cases h; omega
  | cons o os ih =>
    intro b e h a h1 h2
    rcases Nat.lt_or_ge a (o.addr + o.data.length) with hlt | hge
    · have : o.addr = b := h.1
      exact ⟨o, List.mem_cons_self, by omega, hlt⟩
    · have hb : o.addr = b := h.1
      obtain ⟨o', h3, h4⟩ := ih h.2 a (by omega) h2
      exact ⟨o', List.mem_cons_of_mem _ h3, h4⟩

/-- the bytes of a packet -/
def bytes (ds : List Desc) : List Nat := ds.flatMap (·.data)

theorem frame {P : Params} (hgd : BufRing.Good P.buf) {x : Sys} (h : All P x) {k : Nat} (hk : k < x.g.txn) (hg : x.g.good k = true) (ht : x.g.txs k = false) :
    BufRing.read x.g.b.ram (P.buf.off (x.g.place k)) (total (x.g.descs k)) = bytes (x.g.descs k) := by
  have hr := h.ring hgd
  obtain ⟨w, r, hring⟩ := hr.ring
  obtain ⟨hc, hrep⟩ : complete (x.g.descs k) = true ∧ x.g.rep k = reads (x.g.descs k) := by
    rcases h.inv.oldt k hk with hb | hb
    · rw [bad_good hb] at hg; cases hg
    · exact hb.2
  have hmem : x.g.pkt k ∈ x.g.b.pkts := by
    rw [hr.pkts]; exact List.mem_map.mpr ⟨k, (hr.mem k).mpr ⟨hc, ht⟩, rfl⟩
  have hops := h.inv.opsd k
  have hw := hr.wrt k ht
  rw [hrep, ← reads_eq hops] at hw
  have hall := countP_full _ hw
  have hfull : ∀ j, j < (x.g.pkt k).len → x.g.b.full (P.buf.off (x.g.pkt k).ptr + j) = true := by
    intro j hj
    obtain ⟨a, h1, h2, h3, h4⟩ := BufRing.Tx.walk_mem _ hring.walk _ hmem
    rw [h1, BufRing.off_mod]
    obtain ⟨o, ho, c1, c2⟩ := tiles_cover _ h4 (a % P.buf.size + j) (by omega) (by omega)
    have hwo := hall o ho (by simp; intro e; rw [e] at c2; simp at c2; omega)
    unfold G.written at hwo
    have := List.all_eq_true.mp hwo (a % P.buf.size + j - o.addr) (List.mem_range.mpr (by omega))
    rw [show o.addr + (a % P.buf.size + j - o.addr) = a % P.buf.size + j by omega] at this
    exact this
  have := BufRing.Tx.contents hring hmem hfull
  have he : (x.g.ops k).flatMap (·.data) = bytes (x.g.descs k) := by
    unfold bytes
    rw [List.flatMap_def, List.flatMap_def, hops]
  rw [← he]; exact this

/-! ### The properties -/

/-- The descriptor fetches that have been taken and the one offered are those of the accepted requests, in order, each with the queue of the request and the
number of the request modulo the size of the descriptor table as the tag. -/
theorem C66_fetch (P : Params) (is : List In) (hl : LegalRun P {} is) :
    (run P {} is).g.fetches ++ shown (run P {} is).s.drValid ((run P {} is).s.drQueue, (run P {} is).s.drTag) = (run P {} is).g.fetchOf P :=
  (all_run is (all_init P) hl).log.fet

/-- When a request gets a tag, every earlier request with that tag is over: there was no descriptor for it, or its completion has been written. -/
theorem C66_tags (P : Params) (is : List In) (hl : LegalRun P {} is) (j k : Nat) (hj : j < k) (hk : k < (run P {} is).g.reqs.length)
    (he : j % P.n = k % P.n) :
    (run P {} is).g.bad j = true ∨ ((run P {} is).g.good j = true ∧ (run P {} is).g.cst j = true) := by
  have h := (all_run is (all_init P) hl).inv
  apply h.oldf
  have := h.le4
  apply Nat.lt_of_not_le
  intro hle
  have := mod_inj_of_window (n := P.n) (a := j) (b := j) (c := k) (by omega) (by have := n_pos P; omega) (by omega) (by omega) he
  omega

/-- The packets that the transmit path has taken and the one offered are those of the requests with descriptors among the first `m` requests, in order, each with
the address of its first byte in the buffer, its length, the tag, and the queue and destination of the request; all their descriptors have arrived and all their
DMA reads have been reported.  Requests without descriptors are passed over. -/
theorem C66_transmit (P : Params) (is : List In) (hl : LegalRun P {} is) : ∃ m, m ≤ (run P {} is).g.reqs.length ∧
    (run P {} is).g.sent ++ shown (run P {} is).s.txValid (run P {} is).s.tx = (List.range m).filterMap ((run P {} is).g.txOf P) ∧
    ∀ k, k < m → (run P {} is).g.bad k = true ∨ ((run P {} is).g.good k = true ∧ complete ((run P {} is).g.descs k) = true ∧
      (run P {} is).g.rep k = reads ((run P {} is).g.descs k)) := by
  have h := all_run is (all_init P) hl
  exact ⟨_, h.inv.le3, h.log.snt, h.inv.oldt⟩

/-- While a packet is offered to the transmit path, and from then until the transmit path reports that it has read it, the packet buffer holds the bytes of all
descriptors of the request, one after the other, at the address and with the length given to the transmit path. -/
theorem C66_frame (P : Params) (hg : BufRing.Good P.buf) (is : List In) (hl : LegalRun P {} is) (t : TxDesc)
    (ht : t ∈ (run P {} is).g.sent ++ shown (run P {} is).s.txValid (run P {} is).s.tx) :
    ∃ k, (run P {} is).g.txOf P k = some t ∧ ((run P {} is).g.txs k = false →
      BufRing.read (run P {} is).g.b.ram t.addr t.len = bytes ((run P {} is).g.descs k)) := by
  have h := all_run is (all_init P) hl
  rw [h.log.snt] at ht
  obtain ⟨k, hk, he⟩ := List.mem_filterMap.mp ht
  refine ⟨k, he, fun hx => ?_⟩
  unfold G.txOf at he
  cases hgk : (run P {} is).g.good k with
  | false => rw [hgk] at he; cases he
  | true =>
    rw [hgk] at he
    have he : ((run P {} is).g.reqs[k]?.map fun q => (⟨P.buf.off ((run P {} is).g.place k), total ((run P {} is).g.descs k), k % P.n, q.queue, q.dest⟩ : TxDesc)) = some t := he
    obtain ⟨q, hq, e⟩ := Option.map_eq_some_iff.mp he
    subst e
    exact frame hg h (List.mem_range.mp hk) hgk hx

/-- One checksum command goes with every packet handed to the transmit path, in the same order, taken from its first descriptor. -/
theorem C66_checksum (P : Params) (hc : P.csum = true) (is : List In) (hl : LegalRun P {} is) : ∃ m,
    (run P {} is).g.sent ++ shown (run P {} is).s.txValid (run P {} is).s.tx = (List.range m).filterMap ((run P {} is).g.txOf P) ∧
    (run P {} is).g.csums ++ shown (run P {} is).s.csValid (run P {} is).s.cs = (List.range m).filterMap (run P {} is).g.csOf ∧
    ∀ k d ds, k < m → (run P {} is).g.descs k = d :: ds → d.csStart < 128 → d.csOff < 128 →
      (run P {} is).g.csOf k = some ⟨d.csEn, d.csStart, d.csStart + d.csOff⟩ := by
  have h := all_run is (all_init P) hl
  have hcs := h.log.csm
  rw [hc] at hcs
  refine ⟨_, h.log.snt, hcs, fun k d ds hk hd h1 h2 => ?_⟩
  have hgk := (h.inv.gd k (by rw [hd]; exact List.cons_ne_nil _ _)).1
  unfold G.csOf
  rw [hgk, hd]
  show some (⟨d.csEn, d.csStart % 128, d.csStart % 128 + d.csOff % 128⟩ : Csum) = some _
  rw [Nat.mod_eq_of_lt h1, Nat.mod_eq_of_lt h2]

/-- The completions that the completion write engine has taken and the one offered are those of the requests with descriptors among the first `m` requests, in
order; every one of those packets has been read from the buffer and its time stamp has arrived. -/
theorem C66_completion (P : Params) (is : List In) (hl : LegalRun P {} is) : ∃ m, m ≤ (run P {} is).g.reqs.length ∧
    (run P {} is).g.cpls ++ shown (run P {} is).s.cqValid (run P {} is).s.cq = (List.range m).filterMap ((run P {} is).g.cplOf P) ∧
    ∀ k, k < m → (run P {} is).g.bad k = true ∨ ((run P {} is).g.good k = true ∧ ((run P {} is).g.cplOf P k).isSome = true ∧
      (run P {} is).g.took k = true ∧ (run P {} is).g.txs k = true ∧ ((run P {} is).g.ts k).isSome = true) := by
  have h := all_run is (all_init P) hl
  refine ⟨_, Nat.le_trans h.inv.le2 h.inv.le3, h.log.cps, fun k hk => ?_⟩
  rcases h.inv.oldc k hk with hb | ⟨h1, h2⟩
  · exact Or.inl hb
  · have htx := h.inv.tt k h2
    refine Or.inr ⟨h1, ?_, h.inv.tx k htx, htx, h2⟩
    obtain ⟨r, hr, hok⟩ := good_some h1
    obtain ⟨t, ht⟩ := Option.isSome_iff_exists.mp h2
    unfold G.cplOf
    rw [List.getElem?_eq_getElem (resp_lt h.inv hr), hr, ht]
    simp only [hok, if_true, Option.isSome_some]

/-- The fields of a completion record. -/
theorem C66_record (P : Params) (q : Req) (ptr len ts : Nat) :
    record P q ptr len ts % 2 ^ 16 = q.queue % 2 ^ 16 ∧ record P q ptr len ts / 2 ^ 16 % 2 ^ 16 = ptr % 2 ^ 16 ∧
    record P q ptr len ts / 2 ^ 32 % 2 ^ 16 = len % 2 ^ 16 ∧ (P.ptp = true → record P q ptr len ts / 2 ^ 64 % 2 ^ 48 = ts / 2 ^ 16 % 2 ^ 48) ∧
    record P q ptr len ts / 2 ^ 168 = q.dest % 2 ^ 9 := by
  unfold record
  have h1 := Nat.mod_lt q.queue (show 0 < 2 ^ 16 by decide)
  have h2 := Nat.mod_lt ptr (show 0 < 2 ^ 16 by decide)
  have h3 := Nat.mod_lt len (show 0 < 2 ^ 16 by decide)
  have h4 := Nat.mod_lt (ts / 2 ^ 16) (show 0 < 2 ^ 48 by decide)
  have h5 := Nat.mod_lt q.dest (show 0 < 2 ^ 9 by decide)
  generalize q.queue % 2 ^ 16 = a at *
  generalize ptr % 2 ^ 16 = b at *
  generalize len % 2 ^ 16 = c at *
  generalize ts / 2 ^ 16 % 2 ^ 48 = d at *
  generalize q.dest % 2 ^ 9 = e at *
  cases P.ptp with
  | true =>
    simp only [if_true]
    refine ⟨by omega, by omega, by omega, fun _ => ?_, by omega⟩
    rw [show a + 2 ^ 16 * b + 2 ^ 32 * c + 2 ^ 64 * d + 2 ^ 168 * e = 2 ^ 64 * (d + 2 ^ 48 * (2 ^ 56 * e)) + (a + 2 ^ 16 * b + 2 ^ 32 * c) by omega,
      Nat.mul_add_div (by decide), Nat.div_eq_of_lt (by omega), Nat.add_zero, Nat.add_mul_mod_self_left, Nat.mod_eq_of_lt h4]
  | false => simp only [Bool.false_eq_true, if_false]; exact ⟨by omega, by omega, by omega, nofun, by omega⟩

/-- Every request gets one status, with its tag: length zero if there was no descriptor for it, else the length of the packet, once the completion has been
written.  The statuses shown so far are for different requests. -/
theorem C66_status (P : Params) (is : List In) (hl : LegalRun P {} is) :
    (run P {} is).g.pulses ++ shown (run P {} is).s.stValid ((run P {} is).s.stLen, (run P {} is).s.stTag) =
      (run P {} is).g.stat.map (run P {} is).g.report ∧
    (run P {} is).g.stat.Nodup ∧
    ∀ k, k ∈ (run P {} is).g.stat → k < (run P {} is).g.reqs.length ∧ ((run P {} is).g.bad k = true ∨ ((run P {} is).g.good k = true ∧ (run P {} is).g.cst k = true)) := by
  have h := all_run is (all_init P) hl
  refine ⟨h.log.sts, h.log.snd, fun k hk => ?_⟩
  rcases (h.log.smem k).mp hk with hb | ⟨h1, h2, _⟩
  · obtain ⟨r, hr, _⟩ := bad_some hb
    exact ⟨resp_lt h.inv hr, Or.inl hb⟩
  · obtain ⟨r, hr, _⟩ := good_some h1
    refine ⟨resp_lt h.inv hr, Or.inr ⟨h1, ?_⟩⟩
    rcases h.inv.oldf k h2 with hb | hb
    · rw [bad_good hb] at h1; cases h1
    · exact hb.2

/-- No status is lost: when a tag has been given to a later request, the status of the earlier one has been shown, but for one request at most. -/
theorem C66_status_all (P : Params) (is : List In) (hl : LegalRun P {} is) : ∃ p : Option Nat, ∀ j k, j < k → k < (run P {} is).g.reqs.length → j % P.n = k % P.n →
    j ∈ (run P {} is).g.stat ∨ p = some j := by
  have h := all_run is (all_init P) hl
  refine ⟨(run P {} is).g.pend, fun j k hj hk he => ?_⟩
  have hfin : j < (run P {} is).g.fin := by
    have := h.inv.le4
    apply Nat.lt_of_not_le
    intro hle
    have := mod_inj_of_window (n := P.n) (a := j) (b := j) (c := k) (by omega) (by have := n_pos P; omega) (by omega) (by omega) he
    omega
  rcases h.inv.oldf j hfin with hb | hb
  · exact Or.inl ((h.log.smem j).mpr (Or.inl hb))
  · by_cases hp : (run P {} is).g.pend = some j
    · exact Or.inr hp
    · exact Or.inl ((h.log.smem j).mpr (Or.inr ⟨hb.1, hfin, hp⟩))

/-- The number of requests whose descriptors have not all arrived never exceeds `MAX_DESC_REQ`. -/
theorem C66_limit (P : Params) (is : List In) (hl : LegalRun P {} is) : (run P {} is).g.waiting ≤ P.maxReq := by
  have h := all_run is (all_init P) hl
  rw [← h.log.cnt]; exact h.log.few

/-- Nothing stalls between the DMA reads and the transmit path: when all descriptors of a packet have arrived and its reads have been reported, and the packets
before it have been taken, the packet is offered or taken one cycle per table entry plus one later, if the checksum commands are taken at once. -/
theorem C66_hands_over (P : Params) (is js : List In) (hl : LegalRun P {} is) (hj : LegalRun P (run P {} is) js) (k : Nat)
    (h1 : (run P {} is).g.good k = true) (h2 : complete ((run P {} is).g.descs k) = true) (h3 : (run P {} is).g.rep k = reads ((run P {} is).g.descs k))
    (h4 : ∀ j, j < k → (run P {} is).g.bad j = true ∨ (run P {} is).g.took j = true) (hc : ∀ i ∈ js, i.csReady = true) (hn : P.n + 1 ≤ js.length) :
    ∃ t, (run P (run P {} is) js).g.txOf P k = some t ∧
      t ∈ (run P (run P {} is) js).g.sent ++ shown (run P (run P {} is) js).s.txValid (run P (run P {} is) js).s.tx := by
  have h := all_run is (all_init P) hl
  obtain ⟨r, hr, _⟩ := good_some h1
  have hk := resp_lt h.inv hr
  have hl1 := h.inv.le1
  have hl2 := h.inv.le2
  have hl4 := h.inv.le4
  have hb : (run P {} is).s.csValid.toNat ≤ 1 := by cases (run P {} is).s.csValid <;> decide
  have hlt := hand_over (k := k) js h h1 h2 h3 h4 hj hc (by omega)
  have h' := all_run js h hj
  have hg' : (run P (run P {} is) js).g.good k = true := by
    have : ∀ (js : List In) (x : Sys), All P x → LegalRun P x js → x.g.good k = true → (run P x js).g.good k = true := by
      intro js
      induction js with
      | nil => intro x _ _ hx; exact hx
      | cons i js ih => intro x ha hl hx; exact ih _ (all_step ha hl.1) hl.2 (good_mono hl.1 hx)
    exact this js _ h hj h1
  obtain ⟨r', hr', _⟩ := good_some hg'
  have hk' := resp_lt h'.inv hr'
  rw [h'.log.snt]
  have he : ∃ t, (run P (run P {} is) js).g.txOf P k = some t := by
    unfold G.txOf
    rw [hg', List.getElem?_eq_getElem hk']; exact ⟨_, rfl⟩
  obtain ⟨t, ht⟩ := he
  exact ⟨t, ht, List.mem_filterMap.mpr ⟨k, List.mem_range.mpr hlt, ht⟩⟩

/-! ### Concrete runs -/

def legalB (P : Params) (g : G) (i : In) : Bool :=
  (match i.dstat with | some d => (match g.own d.tag with | some k => decide (k < g.fetches.length) && (g.resp k).isNone | none => false) | none => true) &&
  (match i.desc with
    | some d => (match g.own d.tid with
      | some k => g.good k && !complete (g.descs k) && (List.range k).all (fun j => g.bad j || complete (g.descs j)) &&
          decide (total (g.descs k) + d.data.length ≤ P.buf.max) && decide (reads (g.descs k) + 1 < 2 ^ P.cw)
      | none => false)
    | none => true) &&
  (!g.b.ended || i.desc.isNone) &&
  i.pokes.all (fun w => g.b.flat.any fun o => decide (o.addr ≤ w.1) && o.data[w.1 - o.addr]? == some w.2) &&
  (match i.rstat with
    | some t => (match g.own t with
      | some k => !g.txs k && decide (g.rep k < (g.ops k).countP (fun o => decide (o.data.length ≠ 0) && g.written o))
      | none => false)
    | none => true) &&
  (match i.txStat with | some t => (match g.own t with | some k => g.took k && !g.txs k && g.out.head? == some k | none => false) | none => true) &&
  (match i.txCpl with | some (true, t, _) => (match g.own t with | some k => g.txs k && (g.ts k).isNone | none => false) | _ => true) &&
  (match i.cstat with | some t => (match g.own t with | some k => g.cqTook k && !g.cst k | none => false) | none => true)

def legalRunB (P : Params) : Sys → List In → Bool
  | _, [] => true
  | x, i :: is => legalB P x.g i && legalRunB P (step P x i) is

theorem legal_of {P : Params} {g : G} {i : In} (h : legalB P g i = true) : Legal P g i := by
  unfold legalB at h
  simp only [Bool.and_eq_true] at h
  obtain ⟨⟨⟨⟨⟨⟨⟨h1, h2⟩, h3⟩, h4⟩, h5⟩, h6⟩, h7⟩, h8⟩ := h
  refine ⟨fun d hd => ?_, fun d hd => ?_, fun he => ?_, fun w hw => ?_, fun t ht => ?_, fun t ht => ?_, fun t ts ht => ?_, fun t ht => ?_⟩
  · rw [hd] at h1
    cases ho : g.own d.tag with
    | none => simp [ho] at h1
    | some k => simp [ho] at h1; exact ⟨k, rfl, h1.1, h1.2⟩
  · rw [hd] at h2
    cases ho : g.own d.tid with
    | none => simp [ho] at h2
    | some k =>
      simp only [ho, Bool.and_eq_true, decide_eq_true_eq, List.all_eq_true, List.mem_range, Bool.or_eq_true, Bool.not_eq_true'] at h2
      exact ⟨k, rfl, h2.1.1.1.1, h2.1.1.1.2, h2.1.1.2, h2.1.2, h2.2⟩
  · rw [he] at h3
    cases hd : i.desc with
    | none => rfl
    | some d => rw [hd] at h3; cases h3
  · have := List.all_eq_true.mp h4 w hw
    obtain ⟨o, ho, k⟩ := List.any_eq_true.mp this
    rw [Bool.and_eq_true, decide_eq_true_eq, beq_iff_eq] at k
    exact ⟨o, ho, w.1 - o.addr, k.2, by omega⟩
  · rw [ht] at h5
    cases ho : g.own t with
    | none => simp [ho] at h5
    | some k =>
      simp only [ho, Bool.and_eq_true, Bool.not_eq_true'] at h5
      exact ⟨k, rfl, h5.1, of_decide_eq_true h5.2⟩
  · rw [ht] at h6
    cases ho : g.own t with
    | none => simp [ho] at h6
    | some k =>
      simp only [ho, Bool.and_eq_true, Bool.not_eq_true', beq_iff_eq] at h6
      exact ⟨k, rfl, h6.1.1, h6.1.2, h6.2⟩
  · rw [ht] at h7
    cases ho : g.own t with
    | none => simp [ho] at h7
    | some k =>
      simp [ho] at h7
      exact ⟨k, rfl, h7.1, h7.2⟩
  · rw [ht] at h8
    cases ho : g.own t with
    | none => simp [ho] at h8
    | some k =>
      simp only [ho, Bool.and_eq_true, Bool.not_eq_true'] at h8
      exact ⟨k, rfl, h8.1, h8.2⟩

theorem legalRun_of {P : Params} (is : List In) : ∀ x, legalRunB P x is = true → LegalRun P x is := by
  induction is with
  | nil => intro x _; trivial
  | cons i is ih =>
    intro x h
    have h : (legalB P x.g i && legalRunB P (step P x i) is) = true := h
    rw [Bool.and_eq_true] at h
    exact ⟨legal_of h.1, ih _ h.2⟩

/-- a table of two entries, a buffer of 32 bytes with steps of 4 bytes, packets of at most 8 bytes -/
def exP : Params := ⟨1, ⟨5, 2, 8⟩, 2, 2, true, true⟩

def exReq (a b : Nat) : Req := { queue := a, tag := b, dest := 1 }

def exOk (t p c : Nat) : DStat := { ptr := p, cpl := c, tag := t, empty := false, error := false }

def exNo (t : Nat) : DStat := { ptr := 0, cpl := 0, tag := t, empty := true, error := false }

def exDesc (t : Nat) (l : Bool) (d : List Nat) : Desc := { tid := t, data := d, csStart := 14, csOff := 6, csEn := true, last := l }

/-- three requests: a packet of two descriptors, no descriptor, a packet of one descriptor with the tag of the first request -/
def exRun : List In :=
  [{}, { req := exReq 5 40 }, { drReady := true }, { req := exReq 6 41, dstat := exOk 0 17 3 }, { drReady := true, desc := exDesc 0 false [1, 2, 3] },
   { dstat := exNo 1, desc := exDesc 0 true [4, 5], pokes := [(2, 3)] }, { pokes := [(0, 1), (1, 2)] }, { rstat := some 0, pokes := [(4, 5), (3, 4)] },
   { rstat := some 0 }, {}, { txReady := true, csReady := true }, { txStat := some 0 }, { txCpl := some (true, 0, 0x123456789) }, {}, { cqReady := true },
   { cstat := some 0 }, {}, { req := exReq 7 42 }, { req := exReq 7 42, drReady := true }, { req := exReq 7 42 }, { drReady := true }, {},
   { dstat := exOk 0 18 3 }, { desc := exDesc 0 true [9] }, { pokes := [(8, 9)] }, { rstat := some 0 }, {}, {}]

set_option maxRecDepth 100000 in
example : LegalRun exP {} exRun ∧ BufRing.Good exP.buf := ⟨legalRun_of _ _ (by decide), by decide, by decide⟩

set_option maxRecDepth 100000 in
example : (run exP {} exRun).g.fetches = [(5, 0), (6, 1), (7, 0)] ∧ (run exP {} exRun).g.sent = [⟨0, 5, 0, 5, 1⟩] ∧
    (run exP {} exRun).s.txValid = true ∧ (run exP {} exRun).s.tx = ⟨8, 1, 0, 7, 1⟩ ∧ (run exP {} exRun).g.csums = [⟨true, 14, 20⟩] ∧
    (run exP {} exRun).g.cpls = [⟨3, 0, record exP (exReq 5 40) 17 5 0x123456789⟩] ∧ (run exP {} exRun).g.pulses = [(0, 41), (5, 40)] := by decide

set_option maxRecDepth 100000 in
/-- the first packet in the buffer when it is offered -/
example : (run exP {} (exRun.take 10)).s.txValid = true ∧ BufRing.read (run exP {} (exRun.take 10)).g.b.ram 0 5 = [1, 2, 3, 4, 5] ∧
    bytes ((run exP {} (exRun.take 10)).g.descs 0) = [1, 2, 3, 4, 5] := by decide

set_option maxRecDepth 100000 in
/-- the hypotheses of `C66_hands_over` for the third request -/
example : (run exP {} (exRun.take 26)).g.good 2 = true ∧ complete ((run exP {} (exRun.take 26)).g.descs 2) = true ∧
    (run exP {} (exRun.take 26)).g.rep 2 = reads ((run exP {} (exRun.take 26)).g.descs 2) ∧ (run exP {} (exRun.take 26)).g.took 0 = true ∧
    (run exP {} (exRun.take 26)).g.bad 1 = true ∧ LegalRun exP (run exP {} (exRun.take 26)) (List.replicate 3 { csReady := true }) :=
  ⟨by decide, by decide, by decide, by decide, by decide, legalRun_of _ _ (by decide)⟩

/-! ### Where the code falls short -/

/-- A checksum start of 128 or more, which the descriptor format allows and the Linux driver uses (mqnic_tx.c:448), is not passed on: the table keeps 7 bits of
it. -/
theorem C66_checksum_start (P : Params) (is : List In) (hl : LegalRun P {} is) (k : Nat) (d : Desc) (ds : List Desc)
    (hd : (run P {} is).g.descs k = d :: ds) (h1 : 128 ≤ d.csStart) : ∀ c, (run P {} is).g.csOf k = some c → c.start ≠ d.csStart := by
  have h := all_run is (all_init P) hl
  have hgk := (h.inv.gd k (by rw [hd]; exact List.cons_ne_nil _ _)).1
  intro c hc
  unfold G.csOf at hc
  rw [hgk, hd] at hc
  have hc : some (⟨d.csEn, d.csStart % 128, d.csStart % 128 + d.csOff % 128⟩ : Csum) = some c := hc
  cases hc
  show d.csStart % 128 ≠ d.csStart
  omega

/-- such a packet is sent, with the checksum taken from byte 2 instead of byte 130 -/
def exCs : List In :=
  [{}, { req := exReq 5 40 }, { drReady := true }, { dstat := exOk 0 17 3 }, { desc := some { exDesc 0 true [1] with csStart := 130 } }, { pokes := [(0, 1)] },
   { rstat := some 0 }, {}, { csReady := true }]

set_option maxRecDepth 100000 in
example : LegalRun exP {} exCs ∧ (run exP {} exCs).g.csums = [⟨true, 2, 8⟩] := ⟨legalRun_of _ _ (by decide), by decide⟩

/-- the surroundings behave as for parameters `Q` -/
def LegalAs (P Q : Params) : Sys → List In → Prop
  | _, [] => True
  | x, i :: is => Legal Q x.g i ∧ LegalAs P Q (step P x i) is

/-- The limit on the number of reads is needed: with counters of 1 bit, a packet of two reads is handed to the transmit path before any of its bytes has been
read. -/
theorem C66_counter_wraps : ∃ is, LegalAs { exP with cw := 1 } exP {} is ∧ (run { exP with cw := 1 } {} is).g.sent = [⟨0, 5, 0, 5, 1⟩] ∧
    (run { exP with cw := 1 } {} is).g.rep 0 = 0 ∧ BufRing.read (run { exP with cw := 1 } {} is).g.b.ram 0 5 ≠ bytes ((run { exP with cw := 1 } {} is).g.descs 0) := by
  refine ⟨[{}, { req := exReq 5 40 }, { drReady := true }, { dstat := exOk 0 17 3 }, { desc := exDesc 0 false [1, 2, 3] }, { desc := exDesc 0 true [4, 5] }, {},
    { txReady := true }], ⟨legal_of (by decide), legal_of (by decide), legal_of (by decide), legal_of (by decide), legal_of (by decide), legal_of (by decide),
      legal_of (by decide), legal_of (by decide), trivial⟩, by decide, by decide, by decide⟩

end Corundum.TxEngine
