import Verif.Model.DmaRdReq
import Verif.Model.DmaRdCpl

/-!
Tags, operations and status of the DMA read interface: /repo/fpga/lib/pcie/rtl/dma_if_pcie_rd.v:795-890, 1000-1390, 1510-1753.

The module as a set of events, each of them what one part of the module does at a clock edge.  A clock edge is a sequence of such events: what they read and write
does not overlap except as follows.  `pop` reads `op_table_read_commit` and `op_table_read_count_start` as they were before an `issue` of the same edge, that is, `pop` is
before `issue`; a completion looks at the tag table as it was before the `release` of the same edge, that is, it comes before it.
Simplifications: the table entry of a tag is written with the request and not one edge later; the two FIFOs of free tags are one set; when a part of the module may act
(credits, transmit register, readiness) is left open, except that the status entries are limited (`depth`, see `Model/DmaRdFull`);
dropped completions are no event; the RAM has a write when it signals that it is done with it.
-/
namespace Corundum.DmaRd

/-- a descriptor: tag, RAM select, host address, RAM address, length -/
structure Desc where
  tag : Nat
  sel : Nat
  addr : Nat
  ram : Nat
  len : Nat
deriving DecidableEq

/-- the requests made for a descriptor (`Model/DmaRdReq`) -/
def reqs (c : Cfg) (d : Desc) : List Req := (requests c (d.len + 1) (start d.addr d.ram d.len)).getD []

/-- what is noted for a tag (dma_if_pcie_rd.v:1524-1532) -/
structure TagEnt where
  op : Nat
  sel : Nat
  r : Req

/-- an entry of the status FIFO (dma_if_pcie_rd.v:1484-1489) -/
structure Stat where
  op : Nat
  segs : List Nat
  fin : Bool
  err : Nat
deriving DecidableEq

/-- a completion being received: tag, operation, the writes of the beats to come, `final_cpl_reg` -/
structure Rx (Byte : Type) where
  tag : Nat
  op : Nat
  ws : List (Write Byte)
  fin : Bool

structure St (Byte : Type) where
  /-- `REQ_STATE_START`: RAM select and requests to be made -/
  cur : Option (Nat × List Req) := none
  /-- `req_op_tag_reg` and its valid bit; `op_tag_fifo` -/
  opReg : Option Nat := none
  opFree : List Nat
  /-- `req_pcie_tag_reg` and its valid bit; `pcie_tag_fifo_1` and `_2` -/
  tagReg : Option Nat := none
  free : List Nat
  /-- `pcie_tag_table_active_a` differs from `_b`; the rest of the table -/
  act : Nat → Bool := fun _ => false
  ent : Nat → TagEnt
  /-- `finish_tag_reg`, `pcie_tag_reg`: tags to be released -/
  rel : List Nat := []
  /-- `op_table_tag` -/
  utag : Nat → Nat := fun _ => 0
  /-- `op_table_read_init_a` differs from `_b` -/
  fresh : Nat → Bool := fun _ => false
  commit : Nat → Bool := fun _ => false
  cStart : Nat → Nat := fun _ => 0
  cFin : Nat → Nat := fun _ => 0
  /-- `op_table_error_a` differs from `_b`; `op_table_error_code` -/
  errF : Nat → Bool := fun _ => false
  errC : Nat → Nat := fun _ => 0
  rx : Option (Rx Byte) := none
  /-- `status_fifo` with its input and output registers -/
  stat : List Stat := []
  /-- writes on the way to a RAM segment, with their operation -/
  pend : Nat → List (Nat × Write Byte) := fun _ => []
  /-- `done_count_reg` of a segment -/
  dn : Nat → Nat := fun _ => 0
  mem : Nat → Nat → Byte
  /-- the status output so far: number of the descriptor (ghost), tag, error -/
  out : List (Nat × Nat × Nat) := []
  /-- ghosts: descriptors taken; for each operation its descriptor and number; operations with all requests made; tags with answers to come, bytes answered, and number of the
  descriptor the request is for; numbers of the descriptors with a failed request -/
  hist : List Desc := []
  desc : Nat → Desc
  num : Nat → Nat := fun _ => 0
  busy : List Nat := []
  outs : List Nat := []
  prog : Nat → Nat := fun _ => 0
  own : Nat → Nat := fun _ => 0
  failed : List Nat := []

inductive Ev (Byte : Type)
  | accept (d : Desc)
  | issue
  | opTag
  | tag (t : Nat)
  | cpl (t : Nat) (h : Hdr) (d : Nat → Byte)
  | beat
  | err (t code : Nat)
  | release
  | done (n : Nat)
  | pop

def upd {A : Type} (f : Nat → A) (i : Nat) (v : A) : Nat → A := fun j => if j = i then v else f j

/-- 2^STATUS_FIFO_ADDR_WIDTH, 2^OUTPUT_FIFO_ADDR_WIDTH (dma_if_pcie_rd.v:203-204) -/
def depth : Nat := 32

section
variable {Byte : Type} (w : Nat) (c : Cfg) (p : Ram)

/-- a descriptor is taken (dma_if_pcie_rd.v:797-824, 1551-1555) -/
def accept (s : St Byte) (d : Desc) : Option (St Byte) :=
  match s.cur, s.opReg with
  | none, some o => some { s with cur := some (d.sel, reqs c d), utag := upd s.utag o d.tag, fresh := upd s.fresh o true, errF := upd s.errF o false,
                                  hist := s.hist ++ [d], desc := upd s.desc o d, num := upd s.num o s.hist.length }
  | _, _ => none

/-- a request is made (dma_if_pcie_rd.v:826-880, 1515-1532, 1560-1571); the counters have PCIE_TAG_WIDTH+1 bits -/
def issue (s : St Byte) : Option (St Byte) :=
  match s.cur, s.opReg, s.tagReg with
  | some (sel, r :: rs), some o, some t =>
    some { s with cur := if rs.isEmpty then none else some (sel, rs), opReg := if rs.isEmpty then none else some o, tagReg := none,
                  act := upd s.act t true, ent := upd s.ent t ⟨o, sel, r⟩, commit := upd s.commit o rs.isEmpty, fresh := upd s.fresh o false,
                  cStart := upd s.cStart o (if s.fresh o then s.cFin o else (s.cStart o + 1) % 2 ^ (w + 1)),
                  busy := if rs.isEmpty then o :: s.busy else s.busy, outs := t :: s.outs, prog := upd s.prog t 0,
                  own := upd s.own t (s.hist.length - 1) }
  | _, _, _ => none

/-- the next operation tag is fetched (dma_if_pcie_rd.v:866-872) -/
def opTag (s : St Byte) : Option (St Byte) :=
  match s.opReg, s.opFree with
  | none, o :: os => some { s with opReg := some o, opFree := os }
  | _, _ => none

/-- the next PCIe tag is fetched (dma_if_pcie_rd.v:877-887) -/
def tag (s : St Byte) (t : Nat) : Option (St Byte) :=
  if s.tagReg = none ∧ t ∈ s.free then some { s with tagReg := some t, free := s.free.erase t } else none

/-- `tlp_data_valid_int_next` is not set for an operation of length zero (dma_if_pcie_rd.v:1154-1157) -/
def Write.blank (x : Write Byte) : Write Byte := { x with mask := fun _ => false }

/-- a successful completion for an active tag begins (dma_if_pcie_rd.v:1000-1065, 1140-1160) -/
def cpl (s : St Byte) (t : Nat) (h : Hdr) (d : Nat → Byte) : Option (St Byte) :=
  if s.rx.isNone ∧ s.act t = true then
    let e := s.ent t
    let ws := writes p e.r.ramEnd e.sel h d
    some { s with rx := some ⟨t, e.op, if e.r.zero then (ws.take 1).map Write.blank ++ ws.drop 1 else ws, finalCpl h⟩, prog := upd s.prog t (s.prog t + opCount h) }
  else none

/-- a beat of the completion goes to the RAM (dma_if_pcie_rd.v:955-965, 1160-1178, 1214-1240, 1293-1299) -/
def beat (s : St Byte) : Option (St Byte) :=
  match s.rx with
  | some ⟨t, o, x :: ws, fin⟩ =>
    if s.stat.length < depth then
      some { s with rx := if ws.isEmpty then none else some ⟨t, o, ws, fin⟩,
                    stat := s.stat ++ [⟨o, (List.range p.segs).filter x.mask, fin && ws.isEmpty, 0⟩],
                    pend := fun n => if n < p.segs ∧ x.mask n = true then s.pend n ++ [(o, x)] else s.pend n,
                    rel := if fin && ws.isEmpty then s.rel ++ [t] else s.rel,
                    outs := if fin && ws.isEmpty then s.outs.erase t else s.outs }
    else none
  | _ => none

/-- a completion that ends the request with an error (dma_if_pcie_rd.v:1096-1140) -/
def err (s : St Byte) (t code : Nat) : Option (St Byte) :=
  if s.rx.isNone ∧ s.act t = true ∧ code ≠ 0 ∧ s.stat.length < depth then
    some { s with stat := s.stat ++ [⟨(s.ent t).op, [], true, code⟩], rel := s.rel ++ [t], outs := s.outs.erase t, failed := s.failed ++ [s.own t] }
  else none

/-- a finished tag becomes free (dma_if_pcie_rd.v:1276-1290, 1534-1538) -/
def release (s : St Byte) : Option (St Byte) :=
  match s.rel with
  | t :: ts => some { s with rel := ts, act := upd s.act t false, free := s.free ++ [t] }
  | [] => none

/-- the part of a write for segment `n` -/
def Write.applySeg (x : Write Byte) (n : Nat) (mem : Nat → Nat → Byte) : Nat → Nat → Byte := fun s y =>
  if y % p.lanes / p.segBytes = n then x.apply p mem s y else mem s y

/-- segment `n` of the RAM signals that its oldest write is done (dma_if_pcie_rd.v:1728-1734) -/
def done (s : St Byte) (n : Nat) : Option (St Byte) :=
  match s.pend n with
  | (_, x) :: ws => some { s with mem := x.applySeg p n s.mem, pend := upd s.pend n ws, dn := upd s.dn n (if s.dn n < depth then s.dn n + 1 else s.dn n) }
  | [] => none

/-- the oldest status entry is taken once its segments have signalled (dma_if_pcie_rd.v:1307-1376, 1573-1588, 1735-1738) -/
def pop (s : St Byte) : Option (St Byte) :=
  match s.stat with
  | e :: es =>
    if e.segs.all (fun n => decide (0 < s.dn n)) then
      let s1 := { s with stat := es, dn := fun n => if n ∈ e.segs then s.dn n - 1 else s.dn n,
                         errF := if e.err ≠ 0 then upd s.errF e.op true else s.errF, errC := if e.err ≠ 0 then upd s.errC e.op e.err else s.errC,
                         cFin := if e.fin then upd s.cFin e.op ((s.cFin e.op + 1) % 2 ^ (w + 1)) else s.cFin }
      if e.fin && s.commit e.op && s.cStart e.op == s.cFin e.op then
        some { s1 with opFree := s.opFree ++ [e.op], busy := s.busy.erase e.op,
                       out := s.out ++ [(s.num e.op, s.utag e.op, if e.err ≠ 0 then e.err else if s.errF e.op then s.errC e.op else 0)] }
      else some s1
    else none
  | [] => none

def step (s : St Byte) : Ev Byte → Option (St Byte)
  | .accept d => accept c s d
  | .issue => issue w s
  | .opTag => opTag s
  | .tag t => tag s t
  | .cpl t h d => cpl p s t h d
  | .beat => beat p s
  | .err t code => err s t code
  | .release => release s
  | .done n => done p s n
  | .pop => pop w s

/-- after reset, with 2^`ow` operations (dma_if_pcie_rd.v:1268-1275, 1353-1356) -/
def init (ow : Nat) (mem : Nat → Nat → Byte) : St Byte where
  opFree := List.range (2 ^ ow)
  free := List.range (2 ^ w)
  ent := fun _ => ⟨0, 0, ⟨0, 0, 0, 0, 0, 0, 0, false⟩⟩
  desc := fun _ => ⟨0, 0, 0, 0, 0⟩
  mem := mem

end

end Corundum.DmaRd
