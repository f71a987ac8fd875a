/-!
The packet buffers of the transmit and receive engines: the pointer arithmetic of /repo/fpga/common/rtl/tx_engine.v and
/repo/fpga/common/rtl/rx_engine.v, one step per clock edge, with the buffer RAM they manage.

A packet occupies consecutive bytes starting at `buf_wr_ptr`; the pointer then moves to the next multiple of the step size, or to the
start of the buffer when less than a maximum size packet would be left.  Pointers have one bit more than needed (the lap).

Simplifications: the buffer size and the step size are powers of two and the offset in the RAM is zero; only the registers named below are
kept, the other conditions of the ready signals are inputs (`early`); packets leave the transmit buffer in the order they entered it
(the DMA client works in order).  The descriptor table, of which `desc_table_buf_ptr` and `desc_table_len` appear here as the list of
packets in the buffer, is the subject of other models.
-/
namespace Corundum.BufRing

structure Params where
  /-- `CL_TX_BUFFER_SIZE` -/
  cl : Nat
  /-- `$clog2(TX_BUFFER_STEP_SIZE)` -/
  st : Nat
  /-- `MAX_TX_SIZE` -/
  max : Nat

/-- `TX_BUFFER_SIZE` -/
def Params.size (P : Params) : Nat := 2 ^ P.cl

/-- `ptr & TX_BUFFER_PTR_MASK` (tx_engine.v:210) -/
def Params.off (P : Params) (ptr : Nat) : Nat := ptr &&& (2 ^ P.cl - 1)

/-- the pointer after a packet of length `len` at `ptr` (tx_engine.v:674-679, 741-746; rx_engine.v:696-700, 853-857, 864-868); all ones
in `P.cl + 1` bits is `2 ^ (P.cl + 1) - 1` -/
def nextPtr (P : Params) (ptr len : Nat) : Nat :=
  if P.off ptr + len > 2 ^ P.cl - P.max then
    (ptr ^^^ (2 ^ (P.cl + 1) - 1)) &&& ((2 ^ P.cl - 1) ^^^ (2 ^ (P.cl + 1) - 1))
  else
    ((ptr + len + (2 ^ P.st - 1)) % 2 ^ (P.cl + 1)) &&& ((2 ^ P.st - 1) ^^^ (2 ^ (P.cl + 1) - 1))

/-- `$unsigned(buf_wr_ptr_reg - buf_rd_ptr_reg) < TX_BUFFER_SIZE - MAX_TX_SIZE` (tx_engine.v:628, rx_engine.v:680) -/
def room (P : Params) (wr rd : Nat) : Bool := decide ((wr + 2 ^ (P.cl + 1) - rd) % 2 ^ (P.cl + 1) < 2 ^ P.cl - P.max)

/-- one DMA read into the buffer: the RAM address and the bytes that will be written there -/
structure Op where
  addr : Nat
  data : List Nat
deriving DecidableEq, Repr

/-- a packet in the buffer: its table entry and its reads -/
structure Pkt where
  ptr : Nat
  len : Nat
  ops : List Op
deriving DecidableEq, Repr

def fill (f : Nat → Nat) (ws : List (Nat × Nat)) : Nat → Nat := ws.foldl (fun f w a => if a = w.1 then w.2 else f a) f

def mark (f : Nat → Bool) (ws : List (Nat × Nat)) : Nat → Bool := ws.foldl (fun f w a => if a = w.1 then true else f a) f

/-- bytes read from the RAM -/
def read (f : Nat → Nat) (a n : Nat) : List Nat := (List.range n).map fun j => f (a + j)

/-! ### Transmit -/
namespace Tx

/-- the inputs in one cycle -/
structure In where
  /-- `m_axis_dma_read_desc_ready_int_early` -/
  early : Bool := true
  /-- a descriptor on `s_axis_desc`: the bytes of host memory it points to, and `tlast` -/
  beat : Option (List Nat × Bool) := none
  /-- bytes the DMA engine writes to the RAM: address and value -/
  pokes : List (Nat × Nat) := []
  /-- `s_axis_tx_desc_status_valid`: the oldest packet has been sent -/
  done : Bool := false

structure S where
  /-- `buf_wr_ptr_reg` -/
  wr : Nat := 0
  /-- `buf_rd_ptr_reg` -/
  rd : Nat := 0
  /-- `desc_len_reg` -/
  len : Nat := 0
  /-- `s_axis_desc_tready_reg` -/
  ready : Bool := false
  /-- packets in the buffer, oldest first -/
  pkts : List Pkt := []
  /-- reads of the packet whose descriptors are arriving -/
  cur : List Op := []
  ram : Nat → Nat := fun _ => 0
  /-- bytes written since their address was last handed out -/
  full : Nat → Bool := fun _ => false
  /-- the last descriptor of a packet was taken in the previous cycle -/
  ended : Bool := false

/-- the descriptor taken (tx_engine.v:629) -/
def take (s : S) (i : In) : Option (List Nat × Bool) := if s.ready then i.beat else none

/-- `desc_len_next` before the last descriptor clears it (tx_engine.v:632-636) -/
def lenNext (P : Params) (s : S) (n : Nat) : Nat := if s.len + n > P.max then P.max else s.len + n

/-- the read of a descriptor (tx_engine.v:650-654) -/
def op (P : Params) (s : S) (d : List Nat) : Op := ⟨P.off s.wr + s.len, d⟩

/-- one clock edge (tx_engine.v:626-688, 733-747) -/
def step (P : Params) (s : S) (i : In) : S where
  wr := match take s i with | some (d, true) => nextPtr P s.wr (lenNext P s d.length) | _ => s.wr
  rd := match i.done, s.pkts with | true, p :: _ => nextPtr P p.ptr p.len | _, _ => s.rd
  len := match take s i with | some (_, true) => 0 | some (d, false) => lenNext P s d.length | none => s.len
  ready := i.early && room P s.wr s.rd
  pkts := (if i.done then s.pkts.tail else s.pkts) ++
    (match take s i with | some (d, true) => [⟨s.wr, lenNext P s d.length, s.cur ++ [op P s d]⟩] | _ => [])
  cur := match take s i with | some (_, true) => [] | some (d, false) => s.cur ++ [op P s d] | none => s.cur
  ram := fill s.ram i.pokes
  full := match take s i with
    | some (d, _) => fun a => if P.off s.wr + s.len ≤ a ∧ a < P.off s.wr + s.len + d.length then false else mark s.full i.pokes a
    | none => mark s.full i.pokes
  ended := match take s i with | some (_, true) => true | _ => false

def run (P : Params) (s : S) (is : List In) : S := is.foldl (step P) s

end Tx

/-! ### Receive -/
namespace Rx

/-- the inputs in one cycle -/
structure In where
  /-- the other conditions of `s_axis_rx_req_ready_next` (rx_engine.v:680) -/
  early : Bool := true
  /-- `s_axis_rx_req_valid` -/
  req : Bool := false
  /-- `mtu_reg`: the configured size, at most `MAX_RX_SIZE` (rx_engine.v:950) -/
  mtu : Nat
  /-- the oldest buffer is released (rx_engine.v:846-868) -/
  done : Bool := false

structure S where
  /-- `buf_wr_ptr_reg` -/
  wr : Nat := 0
  /-- `buf_rd_ptr_reg` -/
  rd : Nat := 0
  /-- `s_axis_rx_req_ready_reg` -/
  ready : Bool := false
  /-- buffers handed out, oldest first: pointer and `m_axis_rx_desc_len` -/
  bufs : List (Nat × Nat) := []

/-- one clock edge (rx_engine.v:678-701, 840-869) -/
def step (P : Params) (s : S) (i : In) : S where
  wr := if s.ready && i.req then nextPtr P s.wr i.mtu else s.wr
  rd := match i.done, s.bufs with | true, b :: _ => nextPtr P b.1 i.mtu | _, _ => s.rd
  ready := if s.ready && i.req then false else i.early && room P s.wr s.rd
  bufs := (if i.done then s.bufs.tail else s.bufs) ++ (if s.ready && i.req then [(s.wr, i.mtu)] else [])

def run (P : Params) (s : S) (is : List In) : S := is.foldl (step P) s

end Rx

end Corundum.BufRing
