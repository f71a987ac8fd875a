import Verif.Proof.RxEngineOut

/-! C67: the receive engine. -/
namespace Corundum.RxEngine
open Corundum.TxEngine (DStat Act Cpl shown)
open Corundum.Driver (mod_inj_of_window)

/-! ### More lemmas -/

/-- the bytes a write moves: address in the host and address in the buffer -/
def bytes (w : W) : List (Nat × Nat) := (List.range w.len).map fun j => (w.host + j, w.ram + j)

/-- the bytes of host memory the descriptors point to, in order -/
def slots (ds : List Desc) : List Nat := ds.flatMap fun d => (List.range d.len).map (d.addr + ·)

theorem range_split {n m : Nat} (h : n ≤ m) : List.range m = List.range n ++ (List.range (m - n)).map (n + ·) := by
  rw [← List.range_add]; congr 1; omega

theorem carve_zero (ds : List Desc) : ∀ a, carve a 0 ds = [] := by
  induction ds with
  | nil => intro a; rfl
  | cons d ds ih => intro a; simp only [carve, Nat.min_zero, if_true, Nat.sub_self, ih, List.append_nil]

theorem zip_map_range (x y n : Nat) : ((List.range n).map (x + ·)).zip ((List.range n).map (y + ·)) = (List.range n).map fun j => (x + j, y + j) := by
  rw [List.zip_map']

theorem carve_bytes (ds : List Desc) : ∀ a n, (carve a n ds).flatMap bytes = (slots ds).zip ((List.range n).map (a + ·)) := by
  induction ds with
  | nil => intro a n; rfl
  | cons d ds ih =>
    intro a n
    have hs : slots (d :: ds) = (List.range d.len).map (d.addr + ·) ++ slots ds := rfl
    have hb : (if min d.len n = 0 then [] else [(⟨d.addr, a, min d.len n⟩ : W)]).flatMap bytes =
        (List.range (min d.len n)).map fun j => (d.addr + j, a + j) := by
      split
      · rename_i h0; rw [h0]; rfl
      · simp [bytes]
    simp only [carve, List.flatMap_append]
    rw [hb, hs]
    rcases Nat.le_total d.len n with hle | hle
    · rw [Nat.min_eq_left hle, range_split hle, List.map_append, List.zip_append (by simp), zip_map_range, ih]
      congr 2
      rw [List.map_map]
      apply List.map_congr_left
      intro j _
      simp only [Function.comp]; omega
    · rw [Nat.min_eq_right hle, Nat.sub_self, carve_zero, range_split hle, List.map_append, List.append_assoc]
      have := List.zip_append (l₁ := (List.range n).map (d.addr + ·)) (l₂ := (List.range n).map (a + ·))
        (r₁ := ((List.range (d.len - n)).map (n + ·)).map (d.addr + ·) ++ slots ds) (r₂ := []) (by simp)
      rw [List.append_nil] at this
      rw [this, zip_map_range, List.zip_nil_right]
      rfl

theorem carve_mem (ds : List Desc) : ∀ a n w, w ∈ carve a n ds → a ≤ w.ram ∧ w.ram + w.len ≤ a + n ∧ 0 < w.len := by
  induction ds with
  | nil => intro a n w hw; cases hw
  | cons d ds ih =>
    intro a n w hw
    simp only [carve] at hw
    rcases List.mem_append.mp hw with h | h
    · split at h
      · cases h
      · rename_i h0
        cases List.mem_singleton.mp h
        simp only
        omega
    · have := ih _ _ w h
      omega

theorem carve_total (ds : List Desc) : ∀ a n, ((carve a n ds).map (·.len)).sum = min n (total ds) := by
  induction ds with
  | nil => intro a n; simp [carve, total]
  | cons d ds ih =>
    intro a n
    have ht : total (d :: ds) = d.len + total ds := by unfold total; simp
    simp only [carve, List.map_append, List.sum_append, ih, ht]
    split <;> simp <;> omega

theorem read_slice (f : Nat → Nat) (a n j l : Nat) (h : j + l ≤ n) : BufRing.read f (a + j) l = ((BufRing.read f a n).drop j).take l := by
  unfold BufRing.read
  apply List.ext_getElem
  · simp; omega
  · intro k h1 h2
    simp [Nat.add_assoc]

theorem rep_le {P : Params} {m : Nat} (is : List In) : ∀ {x : Sys}, (∀ k, x.g.rep k ≤ (x.g.ops k).length) → LegalRun P m x is →
    ∀ k, (run P x is).g.rep k ≤ ((run P x is).g.ops k).length := by
  induction is with
  | nil => intro x h _; exact h
  | cons i is ih =>
    rintro x h ⟨h1, h2⟩
    refine ih (fun k => ?_) h2
    show x.g.rep k + (eFor x.g i.wstat k).toNat ≤ (x.g.ops k ++ _).length
    rw [List.length_append]
    cases he : eFor x.g i.wstat k with
    | false => have := h k; show _ + 0 ≤ _; omega
    | true =>
      obtain ⟨t, e1, e2⟩ := eFor_spec he
      obtain ⟨k0, a1, a2, _⟩ := h1.wstat t e1
      rw [e2] at a1; cases a1
      show _ + 1 ≤ _
      omega

theorem not_released {P : Params} {m : Nat} {s : S} {g : G} (h : Inv P m s g) {k : Nat} (hb : g.bad k = false) (hr : g.rep k = 0) : g.cpn ≤ k := by
  apply Nat.le_of_not_lt
  intro hlt
  rcases h.oldc k hlt with h1 | h1
  · rw [hb] at h1; cases h1
  · omega

theorem filterMap_some {α : Type} {f : Nat → Option α} (n : Nat) (h : ∀ k, k < n → (f k).isSome = true) : ∀ j, j < n → ((List.range n).filterMap f)[j]? = f j := by
  induction n with
  | zero => intro j hj; omega
  | succ n ih =>
    have hlen : ((List.range n).filterMap f).length = n := by
      have : ∀ l : List Nat, (∀ k ∈ l, (f k).isSome = true) → (l.filterMap f).length = l.length := by
        intro l
        induction l with
        | nil => intro _; rfl
        | cons a l ih' =>
          intro hl
          obtain ⟨y, hy⟩ := Option.isSome_iff_exists.mp (hl a List.mem_cons_self)
          rw [List.filterMap_cons_some hy, List.length_cons, ih' fun k hk => hl k (List.mem_cons_of_mem _ hk), List.length_cons]
      rw [this _ fun k hk => h k (by have := List.mem_range.mp hk; omega), List.length_range]
    intro j hj
    rw [List.range_succ, List.filterMap_append]
    rcases Nat.lt_or_ge j n with hlt | hge
    · rw [List.getElem?_append_left (by omega)]
      exact ih (fun k hk => h k (by omega)) j hlt
    · have : j = n := by omega
      subst this
      rw [List.getElem?_append_right (by omega), hlen, Nat.sub_self]
      obtain ⟨y, hy⟩ := Option.isSome_iff_exists.mp (h j (by omega))
      rw [hy, List.filterMap_cons_some hy]; rfl

/-! ### The properties -/

/-- Every order to receive a packet offers the configured size, at most the largest packet, within the packet buffer, and carries the number of the request
modulo the size of the table as the tag; orders come in the order of the requests, one each. -/
theorem C67_orders (P : Params) (hG : Good P) (m : Nat) (is : List In) (hl : LegalRun P m (init P m) is) :
    (run P (init P m) is).g.rxs.length + (run P (init P m) is).s.rxValid.toNat = (run P (init P m) is).g.reqs.length ∧
    ∀ k o, ((run P (init P m) is).g.rxs ++ shown (run P (init P m) is).s.rxValid (run P (init P m) is).s.rx)[k]? = some o →
      o.len = min m P.buf.max ∧ o.addr + o.len ≤ P.buf.size ∧ o.tag = k % P.n := by
  have h := all_run hG is (all_init P m) hl
  constructor
  · have := congrArg List.length h.inv.rxs
    rw [List.length_append] at this
    unfold G.rxOf at this
    rw [List.length_map, List.length_range] at this
    unfold shown at this
    revert this
    cases (run P (init P m) is).s.rxValid <;> intro this <;> exact this
  · intro k o ho
    rw [h.inv.rxs] at ho
    unfold G.rxOf at ho
    rw [List.getElem?_map] at ho
    rcases Nat.lt_or_ge k (run P (init P m) is).g.reqs.length with hlt | hge
    · rw [List.getElem?_range hlt] at ho
      cases ho
      exact ⟨rfl, h.ring.fit k hlt, rfl⟩
    · rw [List.getElem?_eq_none (by simpa using hge)] at ho; cases ho

/-- The buffer of a packet is not given to another one before a write of the packet to the host has been reported, or the packet has been dropped. -/
theorem C67_buffers_apart (P : Params) (hG : Good P) (m : Nat) (is : List In) (hl : LegalRun P m (init P m) is) (j k : Nat) (a b : RxDesc) (hjk : j < k)
    (ha : (run P (init P m) is).g.rxs[j]? = some a) (hb : (run P (init P m) is).g.rxs[k]? = some b)
    (hd : (run P (init P m) is).g.bad j = false) (hr : (run P (init P m) is).g.rep j = 0) : a.addr + a.len ≤ b.addr ∨ b.addr + b.len ≤ a.addr ∨ m = 0 ∨ P.buf.max = 0 := by
  have h := all_run hG is (all_init P m) hl
  obtain ⟨_, rfl⟩ := order_at h.inv ha
  obtain ⟨hk, rfl⟩ := order_at h.inv hb
  have hap := apart hG h.ring (not_released h.inv hd hr) hjk hk
  simp only
  apply Classical.byContradiction
  intro hn
  simp only [not_or] at hn
  obtain ⟨h1, h2, h3, h4⟩ := hn
  rcases Nat.le_total (P.buf.off ((run P (init P m) is).g.place j)) (P.buf.off ((run P (init P m) is).g.place k)) with hle | hle
  · exact hap (P.buf.off ((run P (init P m) is).g.place k)) (by omega)
  · exact hap (P.buf.off ((run P (init P m) is).g.place j)) (by omega)

/-- When a request gets a tag, every earlier request with that tag is over: the packet was dropped, or its completion has been written; and the status of the
earlier request has been shown or is shown in this cycle. -/
theorem C67_tags (P : Params) (hG : Good P) (m : Nat) (is : List In) (hl : LegalRun P m (init P m) is) (j k : Nat) (hj : j < k)
    (hk : k < (run P (init P m) is).g.reqs.length) (he : j % P.n = k % P.n) :
    ((run P (init P m) is).g.bad j = true ∨ ((run P (init P m) is).g.good j = true ∧ (run P (init P m) is).g.cst j = true)) ∧
    j < (run P (init P m) is).g.pulses.length + (run P (init P m) is).s.stValid.toNat := by
  have h := (all_run hG is (all_init P m) hl).inv
  have hlt : j < (run P (init P m) is).g.fin := by
    have := h.le4
    apply Nat.lt_of_not_le
    intro hle
    have := mod_inj_of_window (n := P.n) (a := j) (b := j) (c := k) (by omega) (by have := n_pos P; omega) (by omega) (by omega) he
    omega
  exact ⟨h.oldf j hlt, by rw [h.pul]; exact hlt⟩

/-- Descriptors are fetched for the packets in order, from the queue that the queue map chose for the packet, after the packet has been received. -/
theorem C67_fetch (P : Params) (hG : Good P) (m : Nat) (is : List In) (hl : LegalRun P m (init P m) is) (k : Nat) (f : Nat × Nat)
    (hf : ((run P (init P m) is).g.fetches ++ shown (run P (init P m) is).s.drValid ((run P (init P m) is).s.drQueue, (run P (init P m) is).s.drTag))[k]? = some f) :
    (run P (init P m) is).g.map k = some f.1 ∧ f.2 = k % P.n ∧ ((run P (init P m) is).g.rx k).isSome = true := by
  have h := all_run hG is (all_init P m) hl
  have hs : ∀ j, j < (run P (init P m) is).g.dqn → ((run P (init P m) is).g.fetchOf P j).isSome = true := by
    intro j hj
    obtain ⟨q, hq⟩ := Option.ne_none_iff_exists'.mp (h.inv.oldq j hj)
    unfold G.fetchOf; rw [hq]; rfl
  have hlt : k < (run P (init P m) is).g.dqn := by
    have h1 := (List.getElem?_eq_some_iff.mp hf).1
    have h2 := h.inv.fe
    rw [List.length_append] at h1
    unfold shown at h1
    revert h1 h2
    cases (run P (init P m) is).s.drValid <;> intro h1 h2 <;> simp at h1 h2 <;> omega
  rw [h.log.fet, filterMap_some _ hs k hlt] at hf
  unfold G.fetchOf at hf
  cases hm : (run P (init P m) is).g.map k with
  | none => rw [hm] at hf; cases hf
  | some q =>
    rw [hm] at hf; cases hf
    refine ⟨rfl, rfl, ?_⟩
    obtain ⟨x, hx⟩ := Option.ne_none_iff_exists'.mp (h.inv.mr k (by rw [hm]; simp))
    rw [hx]; rfl

/-- The number of packets whose descriptors have been asked for and have not all arrived never exceeds `MAX_DESC_REQ`. -/
theorem C67_limit (P : Params) (hG : Good P) (m : Nat) (is : List In) (hl : LegalRun P m (init P m) is) :
    (List.range ((run P (init P m) is).g.fetches.length + (run P (init P m) is).s.drValid.toNat)).countP
      (fun k => !(run P (init P m) is).g.bad k && !complete ((run P (init P m) is).g.descs k)) ≤ P.maxReq := by
  have h := all_run hG is (all_init P m) hl
  rw [h.inv.fe]
  have := h.log.few
  rw [h.log.cnt] at this
  exact this

/-- The writes of a packet move its bytes, from the first, to the host memory that its descriptors point to, in the order of the descriptors, until the packet or the
host memory ends; no byte twice and nothing else. -/
theorem C67_writes (P : Params) (hG : Good P) (m : Nat) (is : List In) (hl : LegalRun P m (init P m) is) (k : Nat) (x : RStat) (o : RxDesc)
    (hx : (run P (init P m) is).g.rx k = some x) (ho : (run P (init P m) is).g.rxs[k]? = some o) :
    ((run P (init P m) is).g.ops k).flatMap bytes = (slots ((run P (init P m) is).g.descs k)).zip ((List.range x.len).map (o.addr + ·)) := by
  have h := all_run hG is (all_init P m) hl
  obtain ⟨_, rfl⟩ := order_at h.inv ho
  rw [h.inv.opsE k, carve_bytes, len_some hx]

/-- Until the first report about a write of a packet, the buffer holds the packet: whatever part of a write the DMA engine carries out in that time, it
reads bytes of the packet as received. -/
theorem C67_data (P : Params) (hG : Good P) (m : Nat) (is : List In) (hl : LegalRun P m (init P m) is) (k : Nat) (o : RxDesc) (w : W)
    (ho : (run P (init P m) is).g.rxs[k]? = some o) (hw : w ∈ (run P (init P m) is).g.ops k) (hr : (run P (init P m) is).g.rep k = 0) :
    o.addr ≤ w.ram ∧ BufRing.read (run P (init P m) is).g.ram w.ram w.len = (((run P (init P m) is).g.data k).drop (w.ram - o.addr)).take w.len := by
  have h := all_run hG is (all_init P m) hl
  obtain ⟨_, rfl⟩ := order_at h.inv ho
  rw [h.inv.opsE k] at hw
  have hne : (run P (init P m) is).g.descs k ≠ [] := by intro e; rw [e] at hw; cases hw
  have hg := h.inv.gd k hne
  obtain ⟨r, hr', _⟩ := good_some hg
  obtain ⟨x, hx⟩ := resp_rx h.inv (k := k) (by rw [hr']; simp)
  rw [len_some hx] at hw
  obtain ⟨h1, h2, _⟩ := carve_mem _ _ _ _ hw
  refine ⟨h1, ?_⟩
  rw [← h.ring.data k x (not_released h.inv (good_not_bad hg) hr) hx]
  have := read_slice (run P (init P m) is).g.ram (P.buf.off ((run P (init P m) is).g.place k)) x.len (w.ram - P.buf.off ((run P (init P m) is).g.place k)) w.len (by omega)
  rw [← this]
  congr 1
  omega

/-- With one write per packet, as with the single descriptor blocks that the driver uses for receive queues, every write is carried out before the buffer is given up: as
long as it has not been reported, its bytes are in the buffer. -/
theorem C67_data_single (P : Params) (hG : Good P) (m : Nat) (is : List In) (hl : LegalRun P m (init P m) is) (k : Nat) (o : RxDesc) (w : W)
    (ho : (run P (init P m) is).g.rxs[k]? = some o) (hw : (run P (init P m) is).g.ops k = [w]) (hr : (run P (init P m) is).g.rep k < ((run P (init P m) is).g.ops k).length) :
    w.ram = o.addr ∧ BufRing.read (run P (init P m) is).g.ram w.ram w.len = ((run P (init P m) is).g.data k).take w.len := by
  have h := all_run hG is (all_init P m) hl
  have hw' : w ∈ (run P (init P m) is).g.ops k := by rw [hw]; exact List.mem_singleton.mpr rfl
  rw [hw] at hr
  have hr : (run P (init P m) is).g.rep k < 1 := hr
  have hr0 : (run P (init P m) is).g.rep k = 0 := by omega
  obtain ⟨d1, d2⟩ := C67_data P hG m is hl k o w ho hw' hr0
  have he : w.ram = o.addr := by
    obtain ⟨_, rfl⟩ := order_at h.inv ho
    have hc := h.inv.opsE k
    rw [hw] at hc
    have : ∀ (ds : List Desc) a n, carve a n ds = [w] → w.ram = a := by
      intro ds
      induction ds with
      | nil => intro a n e; cases e
      | cons d ds ih =>
        intro a n e
        simp only [carve] at e
        split at e
        · rename_i h0
          rw [List.nil_append, h0] at e
          exact ih _ _ e
        · cases (List.cons.inj e).1; rfl
    exact this _ _ _ hc.symm
  rw [he, Nat.sub_self, List.drop_zero] at d2
  exact ⟨he, by rw [he]; exact d2⟩

/-- Completions come in the order of the packets, one for every packet that was not dropped, with the completion queue and queue pointer of the descriptor fetch, the queue of
the queue map, and the length, port, time stamp and hash of the receive path; each after all descriptors of the packet have arrived and a write has been reported. -/
theorem C67_completion (P : Params) (hG : Good P) (m : Nat) (is : List In) (hl : LegalRun P m (init P m) is) : ∃ n, n ≤ (run P (init P m) is).g.reqs.length ∧
    (run P (init P m) is).g.cpls ++ shown (run P (init P m) is).s.cqValid (run P (init P m) is).s.cq = (List.range n).filterMap ((run P (init P m) is).g.cplOf P) ∧
    ∀ k, k < n → (run P (init P m) is).g.bad k = true ∨ ((run P (init P m) is).g.good k = true ∧ ((run P (init P m) is).g.cplOf P k).isSome = true ∧
      complete ((run P (init P m) is).g.descs k) = true ∧ 0 < (run P (init P m) is).g.rep k ∧ (P.csum = true → ((run P (init P m) is).g.csum k).isSome = true)) := by
  have h := all_run hG is (all_init P m) hl
  have hle2 := h.inv.le2
  have hle3 := h.inv.le3
  refine ⟨_, by omega, h.log.cps, fun k hk => ?_⟩
  rcases h.inv.oldc k hk with hb | ⟨h1, h2⟩
  · exact Or.inl hb
  · obtain ⟨r, hr, hok⟩ := good_some h1
    obtain ⟨q, hq⟩ := Option.ne_none_iff_exists'.mp (h.inv.oldq k (by omega))
    obtain ⟨x, hx⟩ := Option.ne_none_iff_exists'.mp (h.inv.mr k (by rw [hq]; simp))
    refine Or.inr ⟨h1, ?_, h.inv.rp k h2, h2, fun hc => ?_⟩
    · unfold G.cplOf
      rw [hq, hr, hx]
      simp only [hok, if_true, Option.isSome_some]
    · have := h.inv.le5 hc
      rcases h.inv.olds k (by omega) with hb | hb
      · rw [bad_good hb] at h1; cases h1
      · exact Option.isSome_iff_ne_none.mpr hb

/-- The fields of the user signal of a packet arrive where the engine looks for them. -/
theorem C67_user (P : Params) (bad ts hash htype : Nat) (hb : bad < 2) (hh : hash < 2 ^ 32) (ht : htype < 2 ^ 4) (hts : ts < 2 ^ P.tw) :
    (P.ptp = true → tuser P bad ts hash htype / 2 % 2 ^ P.tw = ts) ∧
    (P.hash = true → tuser P bad ts hash htype / 2 ^ P.hashOff % 2 ^ 32 = hash ∧ tuser P bad ts hash htype / 2 ^ P.typeOff % 2 ^ 4 = htype) := by
  have h2 : ∀ v, tuser P bad ts hash htype / (2 * v) = ((if P.ptp then ts else 0) + 2 ^ (if P.ptp then P.tw else 0) * (hash + 2 ^ (if P.hash then 32 else 0) * htype)) / v := by
    intro v
    rw [← Nat.div_div_eq_div_mul]
    congr 1
    unfold tuser
    omega
  have h1 : tuser P bad ts hash htype / 2 = (if P.ptp then ts else 0) + 2 ^ (if P.ptp then P.tw else 0) * (hash + 2 ^ (if P.hash then 32 else 0) * htype) := by
    have := h2 1; rw [Nat.div_one] at this; exact this
  have key : tuser P bad ts hash htype / 2 ^ P.hashOff = hash + 2 ^ (if P.hash then 32 else 0) * htype := by
    unfold Params.hashOff
    rw [Nat.pow_add, Nat.pow_one, h2]
    cases P.ptp with
    | true =>
      simp only [if_true]
      rw [Nat.add_mul_div_left _ _ (Nat.two_pow_pos _), Nat.div_eq_of_lt hts, Nat.zero_add]
    | false => simp
  constructor
  · intro hp
    rw [h1, hp]
    simp only [if_true]
    rw [Nat.add_mul_mod_self_left, Nat.mod_eq_of_lt hts]
  · intro hp
    unfold Params.typeOff
    rw [Nat.pow_add, ← Nat.div_div_eq_div_mul, key, hp]
    simp only [if_true]
    omega

/-- The fields of a completion record. -/
theorem C67_record (P : Params) (q ptr len ts csum hash htype id : Nat) :
    record P q ptr len ts csum hash htype id % 2 ^ 16 = q % 2 ^ 16 ∧ record P q ptr len ts csum hash htype id / 2 ^ 16 % 2 ^ 16 = ptr % 2 ^ 16 ∧
    record P q ptr len ts csum hash htype id / 2 ^ 32 % 2 ^ 16 = len % 2 ^ 16 ∧
    (P.ptp = true → record P q ptr len ts csum hash htype id / 2 ^ 64 % 2 ^ 48 = ts / 2 ^ 16 % 2 ^ 48) ∧
    (P.csum = true → record P q ptr len ts csum hash htype id / 2 ^ 112 % 2 ^ 16 = csum % 2 ^ 16) ∧
    (P.hash = true → record P q ptr len ts csum hash htype id / 2 ^ 128 % 2 ^ 32 = hash % 2 ^ 32 ∧
      record P q ptr len ts csum hash htype id / 2 ^ 160 % 2 ^ 8 = htype % 2 ^ 8) ∧
    record P q ptr len ts csum hash htype id / 2 ^ 168 = id % 2 ^ 9 := by
  unfold record
  have h1 := Nat.mod_lt q (show 0 < 2 ^ 16 by decide)
  have h2 := Nat.mod_lt ptr (show 0 < 2 ^ 16 by decide)
  have h3 := Nat.mod_lt len (show 0 < 2 ^ 16 by decide)
  have h4 := Nat.mod_lt (ts / 2 ^ 16) (show 0 < 2 ^ 48 by decide)
  have h5 := Nat.mod_lt csum (show 0 < 2 ^ 16 by decide)
  have h6 := Nat.mod_lt hash (show 0 < 2 ^ 32 by decide)
  have h7 := Nat.mod_lt htype (show 0 < 2 ^ 8 by decide)
  generalize q % 2 ^ 16 = a at *
  generalize ptr % 2 ^ 16 = b at *
  generalize len % 2 ^ 16 = c at *
  generalize ts / 2 ^ 16 % 2 ^ 48 = d at *
  generalize csum % 2 ^ 16 = e at *
  generalize hash % 2 ^ 32 = f at *
  generalize htype % 2 ^ 8 = g at *
  generalize id % 2 ^ 9 = k at *
  have hd : (if P.ptp = true then 2 ^ 64 * d else 0) = 2 ^ 64 * (if P.ptp then d else 0) := by cases P.ptp <;> rfl
  have he : (if P.csum = true then 2 ^ 112 * e else 0) = 2 ^ 112 * (if P.csum then e else 0) := by cases P.csum <;> rfl
  have hf : (if P.hash = true then 2 ^ 128 * f + 2 ^ 160 * g else 0) = 2 ^ 128 * (if P.hash then f else 0) + 2 ^ 160 * (if P.hash then g else 0) := by
    cases P.hash <;> rfl
  rw [hd, he, hf]
  have hd' : (if P.ptp then d else 0) < 2 ^ 48 := by cases P.ptp <;> simp <;> omega
  have he' : (if P.csum then e else 0) < 2 ^ 16 := by cases P.csum <;> simp <;> omega
  have hf' : (if P.hash then f else 0) < 2 ^ 32 := by cases P.hash <;> simp <;> omega
  have hg' : (if P.hash then g else 0) < 2 ^ 8 := by cases P.hash <;> simp <;> omega
  have ed : P.ptp = true → (if P.ptp then d else 0) = d := fun h => if_pos h
  have ee : P.csum = true → (if P.csum then e else 0) = e := fun h => if_pos h
  have ef : P.hash = true → (if P.hash then f else 0) = f := fun h => if_pos h
  have eg : P.hash = true → (if P.hash then g else 0) = g := fun h => if_pos h
  generalize (if P.ptp then d else 0) = d' at *
  generalize (if P.csum then e else 0) = e' at *
  generalize (if P.hash then f else 0) = f' at *
  generalize (if P.hash then g else 0) = g' at *
  obtain ⟨y, hy⟩ : ∃ y, y = a + 2 ^ 16 * b + 2 ^ 32 * c := ⟨_, rfl⟩
  have hyl : y < 2 ^ 64 := by omega
  rw [show a + 2 ^ 16 * b + 2 ^ 32 * c + 2 ^ 64 * d' + 2 ^ 112 * e' + (2 ^ 128 * f' + 2 ^ 160 * g') + 2 ^ 168 * k =
    y + 2 ^ 64 * (d' + 2 ^ 48 * (e' + 2 ^ 16 * (f' + 2 ^ 32 * (g' + 2 ^ 8 * k)))) by omega]
  have s0 : ∀ z, (y + 2 ^ 64 * z) / 2 ^ 64 = z := by
    intro z; rw [Nat.add_mul_div_left _ _ (by decide), Nat.div_eq_of_lt hyl, Nat.zero_add]
  have s1 : ∀ z v, (y + 2 ^ 64 * z) / (2 ^ 64 * v) = z / v := by
    intro z v; rw [← Nat.div_div_eq_div_mul, s0]
  have t1 : ∀ z, (d' + 2 ^ 48 * z) / 2 ^ 48 = z := by
    intro z; rw [Nat.add_mul_div_left _ _ (by decide), Nat.div_eq_of_lt hd', Nat.zero_add]
  have t2 : ∀ z, (e' + 2 ^ 16 * z) / 2 ^ 16 = z := by
    intro z; rw [Nat.add_mul_div_left _ _ (by decide), Nat.div_eq_of_lt he', Nat.zero_add]
  have t3 : ∀ z, (f' + 2 ^ 32 * z) / 2 ^ 32 = z := by
    intro z; rw [Nat.add_mul_div_left _ _ (by decide), Nat.div_eq_of_lt hf', Nat.zero_add]
  have t4 : ∀ z, (g' + 2 ^ 8 * z) / 2 ^ 8 = z := by
    intro z; rw [Nat.add_mul_div_left _ _ (by decide), Nat.div_eq_of_lt hg', Nat.zero_add]
  refine ⟨?_, ?_, ?_, fun hp => ?_, fun hp => ?_, fun hp => ⟨?_, ?_⟩, ?_⟩
  · generalize (d' + 2 ^ 48 * (e' + 2 ^ 16 * (f' + 2 ^ 32 * (g' + 2 ^ 8 * k)))) = z; omega
  · generalize (d' + 2 ^ 48 * (e' + 2 ^ 16 * (f' + 2 ^ 32 * (g' + 2 ^ 8 * k)))) = z; omega
  · generalize (d' + 2 ^ 48 * (e' + 2 ^ 16 * (f' + 2 ^ 32 * (g' + 2 ^ 8 * k)))) = z; omega
  · rw [s0, Nat.add_mul_mod_self_left, Nat.mod_eq_of_lt hd']; exact ed hp
  · rw [show (2 : Nat) ^ 112 = 2 ^ 64 * 2 ^ 48 by decide, s1, t1, Nat.add_mul_mod_self_left, Nat.mod_eq_of_lt he']; exact ee hp
  · rw [show (2 : Nat) ^ 128 = 2 ^ 64 * (2 ^ 48 * 2 ^ 16) by decide, s1, ← Nat.div_div_eq_div_mul, t1, t2, Nat.add_mul_mod_self_left, Nat.mod_eq_of_lt hf']; exact ef hp
  · rw [show (2 : Nat) ^ 160 = 2 ^ 64 * (2 ^ 48 * (2 ^ 16 * 2 ^ 32)) by decide, s1, ← Nat.div_div_eq_div_mul, ← Nat.div_div_eq_div_mul, t1, t2, t3,
      Nat.add_mul_mod_self_left, Nat.mod_eq_of_lt hg']; exact eg hp
  · rw [show (2 : Nat) ^ 168 = 2 ^ 64 * (2 ^ 48 * (2 ^ 16 * (2 ^ 32 * 2 ^ 8))) by decide, s1, ← Nat.div_div_eq_div_mul, ← Nat.div_div_eq_div_mul,
      ← Nat.div_div_eq_div_mul, t1, t2, t3, t4]

/-- Checksums are used in the order they come.  If no packet is found to have no descriptor before its checksum has come, the checksum in the completion
of a packet is that packet's. -/
theorem C67_checksum (P : Params) (hG : Good P) (m : Nat) (is : List In) (hl : LegalRun P m (init P m) is) (hp : PromptRun P (init P m) is) (k c : Nat)
    (hc : (run P (init P m) is).g.csum k = some c) : (run P (init P m) is).g.sums[k]? = some c := by
  have h := all_run hG is (all_init P m) hl
  have hpi := pinv_run hG is (inv_init P m) (pinv_init P m) hl hp
  rw [← hpi.sum k, hc]
  apply Nat.lt_of_not_le
  intro hge
  rw [h.inv.csf k hge] at hc; cases hc

/-- Every request gets one status, in the order of the requests, with its tag: length zero if the packet was dropped, else the length of the packet, once the completion
has been written. -/
theorem C67_status (P : Params) (hG : Good P) (m : Nat) (is : List In) (hl : LegalRun P m (init P m) is) : ∃ n, n ≤ (run P (init P m) is).g.reqs.length ∧
    (run P (init P m) is).g.pulses ++ shown (run P (init P m) is).s.stValid ((run P (init P m) is).s.stLen, (run P (init P m) is).s.stTag) =
      (List.range n).map (run P (init P m) is).g.report ∧
    ∀ k, k < n → (run P (init P m) is).g.bad k = true ∨ ((run P (init P m) is).g.good k = true ∧ (run P (init P m) is).g.cst k = true) := by
  have h := all_run hG is (all_init P m) hl
  have := h.inv.le1
  have := h.inv.le2
  have := h.inv.le3
  exact ⟨_, by omega, h.log.sts, h.inv.oldf⟩

/-! ### Where the code falls short -/

/-- A packet that is longer than the memory of its descriptors is cut off, and the completion still reports the full length. -/
theorem C67_truncated (P : Params) (hG : Good P) (m : Nat) (is : List In) (hl : LegalRun P m (init P m) is) (k : Nat) (x : RStat) (c : Cpl)
    (hx : (run P (init P m) is).g.rx k = some x) (hc : (run P (init P m) is).g.cplOf P k = some c) (hlen : x.len < 2 ^ 16)
    (ht : total ((run P (init P m) is).g.descs k) < x.len) :
    (((run P (init P m) is).g.ops k).map (·.len)).sum < c.data / 2 ^ 32 % 2 ^ 16 := by
  have h := all_run hG is (all_init P m) hl
  rw [h.inv.opsE k, carve_total, len_some hx, Nat.min_eq_right (by omega)]
  unfold G.cplOf at hc
  rw [hx] at hc
  generalize (run P (init P m) is).g.map k = a at hc
  generalize (run P (init P m) is).g.resp k = b at hc
  cases a with
  | none => cases hc
  | some q =>
    cases b with
    | none => cases hc
    | some r =>
      simp only at hc
      split at hc
      · cases hc
        rw [(C67_record P _ _ _ _ _ _ _ _).2.2.1, Nat.mod_eq_of_lt hlen]; exact ht
      · cases hc

/-- A packet with nothing to write, for lack of bytes or of host memory, stops the receive engine: neither this packet nor any later one ever gets a completion, and no more requests are
accepted than the table has room for. -/
theorem C67_empty_stalls (P : Params) (hG : Good P) (m : Nat) (is : List In) (hl : LegalRun P m (init P m) is) (k : Nat) (x : RStat)
    (hx : (run P (init P m) is).g.rx k = some x) (hg : (run P (init P m) is).g.good k = true) (h0 : min x.len (total ((run P (init P m) is).g.descs k)) = 0)
    (j : Nat) (hj : k ≤ j) : (run P (init P m) is).g.cqTook j = false ∧ (run P (init P m) is).g.reqs.length ≤ k + P.n := by
  have h := all_run hG is (all_init P m) hl
  have hops : (run P (init P m) is).g.ops k = [] := by
    have hs := carve_total ((run P (init P m) is).g.descs k) (P.buf.off ((run P (init P m) is).g.place k)) x.len
    rw [h0] at hs
    rw [h.inv.opsE k, len_some hx]
    cases hc : carve (P.buf.off ((run P (init P m) is).g.place k)) x.len ((run P (init P m) is).g.descs k) with
    | nil => rfl
    | cons w ws =>
      have := (carve_mem _ _ _ w (by rw [hc]; exact List.mem_cons_self)).2.2
      rw [hc, List.map_cons, List.sum_cons] at hs
      omega
  have hrep := rep_le is (x := init P m) (fun _ => Nat.le_refl _) hl k
  rw [hops] at hrep
  have hle := not_released h.inv (good_not_bad hg) (Nat.le_zero.mp hrep)
  have hle1 := h.inv.le1
  have hle4 := h.inv.le4
  refine ⟨?_, by omega⟩
  cases ht : (run P (init P m) is).g.cqTook j with
  | false => rfl
  | true => have := (h.inv.ck j ht).1; omega

/-! ### Concrete runs -/

def legalB (m : Nat) (g : G) (i : In) : Bool :=
  decide (i.mtu = m) &&
  i.pokes.all (fun w => (List.range g.rxs.length).any fun k => match g.rxs[k]? with
    | some o => (g.rx k).isNone && decide (o.addr ≤ w.1) && decide (w.1 < o.addr + o.len) | none => false) &&
  (match i.rxStat with
    | some r => (match g.own r.tag with
      | some k => (g.rx k).isNone && (match g.rxs[k]? with | some o => decide (r.len ≤ o.len) | none => false)
      | none => false)
    | none => true) &&
  (match i.qmap with | some (t, _) => (match g.own t with | some k => (g.rx k).isSome && (g.map k).isNone | none => false) | none => true) &&
  (match i.dstat with | some d => (match g.own d.tag with | some k => decide (k < g.fetches.length) && (g.resp k).isNone | none => false) | none => true) &&
  (match i.desc with
    | some d => decide (d.len < 2 ^ 32) && (match g.own d.tid with
      | some k => g.good k && !complete (g.descs k) && (List.range g.reqs.length).all (fun j => j == k || (g.descs j).isEmpty || complete (g.descs j))
      | none => false)
    | none => true) &&
  (match i.wstat with
    | some t => (match g.own t with
      | some k => decide (g.rep k < (g.ops k).length) && complete (g.descs k) && decide (g.pulses.length ≤ k)
      | none => false)
    | none => true) &&
  (match i.cstat with | some t => (match g.own t with | some k => g.cqTook k && !g.cst k | none => false) | none => true)

def legalRunB (P : Params) (m : Nat) : Sys → List In → Bool
  | _, [] => true
  | x, i :: is => legalB m x.g i && legalRunB P m (step P x i) is

theorem legal_of {P : Params} {m : Nat} {s : S} {g : G} {i : In} (hi : Inv P m s g) (h : legalB m g i = true) : Legal P m g i := by
  unfold legalB at h
  simp only [Bool.and_eq_true] at h
  obtain ⟨⟨⟨⟨⟨⟨⟨h1, h2⟩, h3⟩, h4⟩, h5⟩, h6⟩, h7⟩, h8⟩ := h
  refine ⟨of_decide_eq_true h1, fun w hw => ?_, fun r hr => ?_, fun t q hq => ?_, fun d hd => ?_, fun d hd => ?_, fun t ht => ?_, fun t ht => ?_⟩
  · have := List.all_eq_true.mp h2 w hw
    obtain ⟨k, _, hk⟩ := List.any_eq_true.mp this
    cases ho : g.rxs[k]? with
    | none => simp [ho] at hk
    | some o =>
      simp [ho] at hk
      exact ⟨k, o, ho, hk.1.1, hk.1.2, hk.2⟩
  · rw [hr] at h3
    cases ho : g.own r.tag with
    | none => simp [ho] at h3
    | some k =>
      cases hx : g.rxs[k]? with
      | none => simp [ho, hx] at h3
      | some o =>
        simp [ho, hx] at h3
        exact ⟨k, rfl, h3.1, o, hx, h3.2⟩
  · rw [hq] at h4
    cases ho : g.own t with
    | none => simp [ho] at h4
    | some k =>
      simp [ho] at h4
      exact ⟨k, rfl, h4.1, h4.2⟩
  · rw [hd] at h5
    cases ho : g.own d.tag with
    | none => simp [ho] at h5
    | some k => simp [ho] at h5; exact ⟨k, rfl, h5.1, h5.2⟩
  · rw [hd] at h6
    cases ho : g.own d.tid with
    | none => simp [ho] at h6
    | some k =>
      simp only [ho, Bool.and_eq_true, decide_eq_true_eq, List.all_eq_true, List.mem_range, Bool.or_eq_true, Bool.not_eq_true', beq_iff_eq,
        List.isEmpty_iff] at h6
      refine ⟨h6.1, k, rfl, h6.2.1.1, h6.2.1.2, fun j hj => ?_⟩
      rcases Nat.lt_or_ge j g.reqs.length with hlt | hge
      · rcases h6.2.2 j hlt with (e | e) | e
        · exact absurd e hj
        · exact Or.inl e
        · exact Or.inr e
      · exact Or.inl (hi.fresh j hge).2.1
  · rw [ht] at h7
    cases ho : g.own t with
    | none => simp [ho] at h7
    | some k =>
      simp only [ho, Bool.and_eq_true, decide_eq_true_eq] at h7
      exact ⟨k, rfl, h7.1.1, h7.1.2, h7.2⟩
  · rw [ht] at h8
    cases ho : g.own t with
    | none => simp [ho] at h8
    | some k =>
      simp only [ho, Bool.and_eq_true, Bool.not_eq_true'] at h8
      exact ⟨k, rfl, h8.1, h8.2⟩

theorem legalRun_of {P : Params} {m : Nat} (hG : Good P) (is : List In) : ∀ x, Inv P m x.s x.g → legalRunB P m x is = true → LegalRun P m x is := by
  induction is with
  | nil => intro x _ _; trivial
  | cons i is ih =>
    intro x hi h
    have h : (legalB m x.g i && legalRunB P m (step P x i) is) = true := h
    rw [Bool.and_eq_true] at h
    have hl := legal_of hi h.1
    exact ⟨hl, ih _ (step_inv hG hi hl) h.2⟩

def promptB (g : G) (i : In) : Bool :=
  match i.dstat with
  | some d => d.ok || (match g.own d.tag with | some k => decide (k < g.sums.length) | none => false)
  | none => true

def promptRunB (P : Params) : Sys → List In → Bool
  | _, [] => true
  | x, i :: is => promptB x.g i && promptRunB P (step P x i) is

theorem prompt_of {g : G} {i : In} (h : promptB g i = true) : Prompt g i := by
  intro d hd hok
  unfold promptB at h
  rw [hd] at h
  cases ho : g.own d.tag with
  | none => simp [ho, hok] at h
  | some k => simp [ho, hok] at h; exact ⟨k, rfl, h⟩

theorem promptRun_of {P : Params} (is : List In) : ∀ x, promptRunB P x is = true → PromptRun P x is := by
  induction is with
  | nil => intro x _; trivial
  | cons i is ih =>
    intro x h
    have h : (promptB x.g i && promptRunB P (step P x i) is) = true := h
    rw [Bool.and_eq_true] at h
    exact ⟨prompt_of h.1, ih _ h.2⟩

/-- a table of four entries, a buffer of 32 bytes with steps of 4 bytes, packets of at most 8 bytes, everything enabled -/
def exP : Params := ⟨2, ⟨5, 2, 8⟩, 2, 8, true, true, 96, true⟩

theorem exGood : Good exP := ⟨⟨by decide, by decide⟩, by decide, by decide⟩

/-- a cycle with every output accepted -/
def go : In := { mtu := 8, rxReady := true, drReady := true, cqReady := true }

def exRx (t l u : Nat) : RStat := { tag := t, len := l, id := 3, user := u }

def exOk (t p c : Nat) : DStat := { ptr := p, cpl := c, tag := t, empty := false, error := false }

def exNo (t : Nat) : DStat := { ptr := 0, cpl := 0, tag := t, empty := true, error := false }

def exDesc (t a l : Nat) (e : Bool) : Desc := { tid := t, addr := a, len := l, last := e }

/-- the user signal of the first packet -/
def exU : Nat := tuser exP 0 0x123456789abcdef 0xdeadbeef 5

/-- two requests: a packet of five bytes written to two blocks of host memory, and a packet without a descriptor -/
def exRun : List In :=
  [go, { go with req := some 40 }, go, { go with req := some 41, pokes := [(0, 1), (1, 2), (2, 3)], csum := some 0x1111 },
   { go with pokes := [(3, 4), (4, 5)] }, { go with rxStat := some (exRx 0 5 exU), pokes := [(8, 9)] },
   { go with qmap := some (0, 6), rxStat := some (exRx 1 1 0), csum := some 0x2222 }, { go with qmap := some (1, 7) }, go, go,
   { go with dstat := some (exOk 0 17 2) }, { go with desc := some (exDesc 0 100 3 false) },
   { go with dstat := some (exNo 1) }, { go with desc := some (exDesc 0 200 8 true) }, go, { go with wstat := some 0 }, { go with wstat := some 0 }, go, go,
   { go with cstat := some 0 }, go, go, go]

/-- the first of two writes of the first packet is reported, and the buffer and the tag of the packet are given to the fifth packet -/
def exEarly : List In :=
  exRun.take 16 ++ [go, go, go, { go with cstat := some 0 }, go, go, { go with req := some 42 }, go, { go with req := some 43 }, go, { go with req := some 44 }, go,
    { go with pokes := [(3, 98), (4, 99)] }]

/-- the fifth packet arrives and gets a descriptor -/
def exEarly2 : List In :=
  [{ go with rxStat := some (exRx 2 1 0), csum := some 1 }, { go with rxStat := some (exRx 3 1 0), csum := some 1 }, { go with rxStat := some (exRx 0 5 0), csum := some 1 },
   { go with qmap := some (2, 6), csum := some 1 }, { go with qmap := some (3, 6), csum := some 1 }, { go with qmap := some (0, 6), csum := some 1 }, go, go, go,
   { go with dstat := some (exNo 2) }, { go with dstat := some (exNo 3) }, go, go, go, { go with dstat := some (exOk 0 18 2) }, { go with desc := some (exDesc 0 300 8 true) }, go]

/-- the descriptor fetch of the first packet fails before the checksums arrive -/
def exShift : List In :=
  [go, { go with req := some 40 }, go, { go with req := some 41 }, { go with rxStat := some (exRx 0 5 exU) }, { go with rxStat := some (exRx 1 4 exU) },
   { go with qmap := some (0, 6) }, { go with qmap := some (1, 6) }, go, go,
   { go with dstat := some (exNo 0) }, { go with dstat := some (exOk 1 17 2) }, go, { go with csum := some 0x1111 },
   { go with desc := some (exDesc 1 100 8 true) }, { go with wstat := some 1 }, go, go]

/-- the second descriptor of a packet arrives after the report about the first write -/
def exLate : List In := exRun.take 12 ++ [{ go with dstat := some (exNo 1) }]

def exLate2 : List In := [{ go with wstat := some 0 }, go, go, { go with cstat := some 0 }, go, go, go, { go with desc := some (exDesc 0 200 8 true) }, go]

set_option maxRecDepth 100000 in
example : LegalRun exP 8 (init exP 8) exRun ∧ PromptRun exP (init exP 8) exRun ∧ Good exP :=
  ⟨legalRun_of exGood _ _ (inv_init _ _) (by decide), promptRun_of _ _ (by decide), exGood⟩

set_option maxRecDepth 100000 in
example : (run exP (init exP 8) exRun).g.rxs = [⟨0, 8, 0⟩, ⟨8, 8, 1⟩] ∧ (run exP (init exP 8) exRun).g.fetches = [(6, 0), (7, 1)] ∧
    (run exP (init exP 8) exRun).g.ops 0 = [⟨100, 0, 3⟩, ⟨200, 3, 2⟩] ∧ (run exP (init exP 8) exRun).g.data 0 = [1, 2, 3, 4, 5] ∧
    (run exP (init exP 8) exRun).g.cpls = [⟨2, 0, record exP 6 17 5 0x123456789abcdef 0x1111 0xdeadbeef 5 3⟩] ∧
    (run exP (init exP 8) exRun).g.pulses = [(5, 40), (0, 41)] ∧ (run exP (init exP 8) exRun).g.bad 1 = true ∧
    (run exP (init exP 8) exRun).g.csum 0 = some 0x1111 := by decide

set_option maxRecDepth 100000 in
/-- the hypotheses of `C67_data` and `C67_buffers_apart` while the writes are carried out -/
example : (run exP (init exP 8) (exRun.take 15)).g.ops 0 = [⟨100, 0, 3⟩, ⟨200, 3, 2⟩] ∧ (run exP (init exP 8) (exRun.take 15)).g.rep 0 = 0 ∧
    BufRing.read (run exP (init exP 8) (exRun.take 15)).g.ram 3 2 = [4, 5] ∧ (run exP (init exP 8) (exRun.take 15)).g.bad 0 = false := by decide

set_option maxRecDepth 100000 in
/-- the hypotheses of `C67_tags` and `C67_data_single`: the fifth request has the tag of the first -/
example : LegalRun exP 8 (init exP 8) (exEarly ++ exEarly2) ∧ (run exP (init exP 8) (exEarly ++ exEarly2)).g.reqs.length = 5 ∧ 0 % exP.n = 4 % exP.n ∧
    (run exP (init exP 8) (exEarly ++ exEarly2)).g.ops 4 = [⟨300, 0, 5⟩] ∧ (run exP (init exP 8) (exEarly ++ exEarly2)).g.rep 4 = 0 :=
  ⟨legalRun_of exGood _ _ (inv_init _ _) (by decide), by decide, by decide, by decide, by decide⟩

/-- a packet of five bytes with a descriptor of three -/
def exShort : List In := exRun.take 11 ++ [{ go with desc := some (exDesc 0 100 3 true) }, go, { go with wstat := some 0 }, go]

set_option maxRecDepth 100000 in
/-- the hypotheses of `C67_truncated` -/
example : LegalRun exP 8 (init exP 8) exShort ∧ (run exP (init exP 8) exShort).g.rx 0 = some (exRx 0 5 exU) ∧
    ((run exP (init exP 8) exShort).g.cplOf exP 0).isSome = true ∧ total ((run exP (init exP 8) exShort).g.descs 0) = 3 :=
  ⟨legalRun_of exGood _ _ (inv_init _ _) (by decide), by decide, by decide, by decide⟩

/-- a descriptor of length zero -/
def exZero : List In := exRun.take 11 ++ [{ go with desc := some (exDesc 0 100 0 true) }]

set_option maxRecDepth 100000 in
/-- the hypotheses of `C67_empty_stalls` -/
example : LegalRun exP 8 (init exP 8) exZero ∧ (run exP (init exP 8) exZero).g.rx 0 = some (exRx 0 5 exU) ∧ (run exP (init exP 8) exZero).g.good 0 = true ∧
    complete ((run exP (init exP 8) exZero).g.descs 0) = true ∧ total ((run exP (init exP 8) exZero).g.descs 0) = 0 :=
  ⟨legalRun_of exGood _ _ (inv_init _ _) (by decide), by decide, by decide, by decide, by decide⟩

example : (0 : Nat) < 2 ∧ 0xdeadbeef < 2 ^ 32 ∧ 5 < 2 ^ 4 ∧ 0x123456789abcdef < 2 ^ exP.tw := by decide

/-! ### More where the code falls short -/

set_option maxRecDepth 100000 in
/-- The completion of a packet with several writes is sent after the report about the first of them, and the buffer is given up then: the completion has been handed over and another packet is
received into the buffer while a write has not been reported; the bytes that write takes from the buffer are not those of the packet. -/
theorem C67_multi_write : ∃ is w, LegalRun exP 8 (init exP 8) is ∧ PromptRun exP (init exP 8) is ∧ (run exP (init exP 8) is).g.ops 0 = [⟨100, 0, 3⟩, w] ∧
    (run exP (init exP 8) is).g.rep 0 = 1 ∧ (run exP (init exP 8) is).g.cqTook 0 = true ∧
    BufRing.read (run exP (init exP 8) is).g.ram w.ram w.len ≠ (((run exP (init exP 8) is).g.data 0).drop w.ram).take w.len :=
  ⟨exEarly, ⟨200, 3, 2⟩, legalRun_of exGood _ _ (inv_init _ _) (by decide), promptRun_of _ _ (by decide), by decide, by decide, by decide, by decide⟩

set_option maxRecDepth 100000 in
/-- Reports carry a tag only.  The report about the second write of a packet, coming after the tag has been given to another packet, is taken for that packet: two reports
for the two writes of the first packet lead to completions of both packets. -/
theorem C67_stale_report : ∃ is, LegalRun exP 8 (init exP 8) is ∧ (is.filter (·.wstat.isSome)).length = 2 ∧ ((run exP (init exP 8) is).g.ops 0).length = 2 ∧
    ((run exP (init exP 8) is).g.ops 4).length = 1 ∧ (run exP (init exP 8) is).g.cqTook 0 = true ∧ (run exP (init exP 8) is).g.cqTook 4 = true :=
  ⟨exEarly ++ exEarly2 ++ [{ go with wstat := some 0 }, go, go], legalRun_of exGood _ _ (inv_init _ _) (by decide), by decide, by decide, by decide, by decide, by decide⟩

set_option maxRecDepth 100000 in
/-- If the answer that there is no descriptor for a packet comes before the checksum of that packet, the checksum goes to the next packet. -/
theorem C67_checksum_shift : ∃ is, LegalRun exP 8 (init exP 8) is ∧ (run exP (init exP 8) is).g.bad 0 = true ∧ (run exP (init exP 8) is).g.sums = [0x1111] ∧
    (run exP (init exP 8) is).g.cpls = [⟨2, 1, record exP 6 17 4 0x123456789abcdef 0x1111 0xdeadbeef 5 3⟩] :=
  ⟨exShift, legalRun_of exGood _ _ (inv_init _ _) (by decide), by decide, by decide, by decide⟩

set_option maxRecDepth 100000 in
/-- If the write for the first descriptor of a packet is reported before the last descriptor has arrived, the packet is completed without the rest, the late
descriptor is ignored, and one of the `MAX_DESC_REQ` places is lost for good. -/
theorem C67_late_descriptor : ∃ is js, LegalRun exP 8 (init exP 8) is ∧ (run exP (init exP 8) (is ++ js)).g.ops 0 = [⟨100, 0, 3⟩] ∧
    (run exP (init exP 8) (is ++ js)).g.rx 0 = some (exRx 0 5 exU) ∧ (run exP (init exP 8) (is ++ js)).g.reqs.length = 2 ∧
    (run exP (init exP 8) (is ++ js)).g.pulses = [(5, 40), (0, 41)] ∧ (run exP (init exP 8) (is ++ js)).s.count = 1 :=
  ⟨exLate, exLate2, legalRun_of exGood _ _ (inv_init _ _) (by decide), by decide, by decide, by decide, by decide, by decide⟩

end Corundum.RxEngine
