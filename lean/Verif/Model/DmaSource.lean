import Verif.Model.DmaSink
/-!
DMA client, RAM to stream: fpga/lib/pcie/rtl/dma_client_axis_source.v, as used by mqnic_interface_tx.v:470-488.

The command side turns a descriptor into read commands of the segments, the stream side takes one response of each segment
used by a transfer. A segment answers its commands in order, so there is one queue of addresses per segment; which of the two
sides is ahead makes no difference to what is taken, so all commands are made first. The contents of the RAM do not change
meanwhile. Simplified as in `Model/DmaSink`; the output register and FIFO behind the stream side (lines 480-566) are left out.
-/
namespace Corundum.DmaSource
open DmaSink (Cfg Beat)

/-- a descriptor: `s_axis_read_desc_*`; id, dest and user are one field -/
structure Desc where
  addr : Nat
  len : Nat
  tag : Nat
  user : Nat
deriving DecidableEq, Repr

/-- SEGS_PER_PART, rounded up, line 133 -/
def segsPerPart (c : Cfg) : Nat := (c.k + 2 ^ c.so - 1) / 2 ^ c.so

/-- PARTS_PER_SEG, rounded up, line 132 -/
def partsPerSeg (c : Cfg) : Nat := (2 ^ c.so + c.k - 1) / c.k

/-- the part of an address: `(addr >> PART_OFFSET_WIDTH) & {PART_COUNT_WIDTH{1'b1}}`, lines 280, 347 -/
def part (c : Cfg) (a : Nat) : Nat := (a >>> c.partOffsetWidth) % 2 ^ c.po

/-- whether segment `n` is used at an address: `read_ram_mask_next`, `ram_mask_next`, lines 279-283, 314-318, 382-386, 411-415 -/
def segMask (c : Cfg) (a n : Nat) : Bool :=
  if c.po > 0 then
    ((2 ^ segsPerPart c - 1) <<< (part c a / partsPerSeg c * segsPerPart c)).testBit n
  else decide (n < c.segs)

/-- cycles less one: `(s_axis_read_desc_len - 1) >> $clog2(AXIS_KEEP_WIDTH_INT)`, with the 32 bits of the literal,
lines 294-295 -/
def count (c : Cfg) (len : Nat) : Nat := (if len = 0 then 2 ^ 32 - 1 else len - 1) >>> c.ko % 2 ^ c.countWidth

/-- queues of the segments: addresses read and not yet taken -/
abbrev Queues := Nat → List Nat

/-- the commands of one cycle: all segments of the mask get the word address, lines 320-325 -/
def issue (c : Cfg) (q : Queues) (a : Nat) : Queues :=
  fun n => if segMask c a n then q n ++ [a >>> (c.ko + c.po)] else q n

/-- READ_STATE_READ, `r` cycles left, lines 305-335 -/
def issueLoop (c : Cfg) : Nat → Nat → Queues → Queues
  | 0, _, q => q
  | r + 1, a, q => issueLoop c r ((a + c.k) % 2 ^ c.aw) (issue c q a)

/-- the commands of a descriptor, lines 271-304 -/
def issueDesc (c : Cfg) (q : Queues) (d : Desc) : Queues :=
  issueLoop c (count c d.len + 1) (d.addr / c.k * c.k % 2 ^ c.aw) q

/-- one cycle of AXIS_STATE_READ: waits (`none`) for all segments of the mask, takes their responses and cuts out the part;
`junk` is on the data lines of the other segments, lines 398-421 -/
def take (c : Cfg) (m junk : Nat → Nat) (q : Queues) (a : Nat) : Option (Queues × List Nat) :=
  if (List.range c.segs).all fun n => !segMask c a n || !(q n).isEmpty then
    let resp : Nat → Nat := fun i =>
      if segMask c a (i / 2 ^ c.so) then m (((q (i / 2 ^ c.so)).headD 0 * c.segs + i / 2 ^ c.so) * 2 ^ c.so + i % 2 ^ c.so)
      else junk i
    some (fun n => if segMask c a n then (q n).tail else q n,
      (List.range c.k).map fun j => resp ((if c.po > 0 then part c a * c.k else 0) + j))
  else none

/-- AXIS_STATE_READ, `r` cycles left after this one, lines 398-440 -/
def axisLoop (c : Cfg) (m junk : Nat → Nat) (offset user : Nat) : Nat → Nat → Queues → Option (Queues × List Beat)
  | 0, a, q =>
    match take c m junk q a with
    | none => none
    | some (q, data) =>
      some (q, [⟨data, if offset > 0 then (2 ^ c.k - 1) >>> (c.k - offset) else 2 ^ c.k - 1, true, user⟩])
  | r + 1, a, q =>
    match take c m junk q a with
    | none => none
    | some (q, data) =>
      match axisLoop c m junk offset user r ((a + c.k) % 2 ^ c.aw) q with
      | none => none
      | some (q, bs) => some (q, ⟨data, 2 ^ c.k - 1, false, user⟩ :: bs)

/-- the stream side for one descriptor, lines 373-397 -/
def axisDesc (c : Cfg) (m junk : Nat → Nat) (d : Desc) (q : Queues) : Option (Queues × List Beat) :=
  axisLoop c m junk (d.len % c.k) d.user (count c d.len) (d.addr / c.k * c.k % 2 ^ c.aw) q

/-- all descriptors on the stream side: the frames put out with the tags of the status, line 432 -/
def axisDescs (c : Cfg) (m junk : Nat → Nat) : List Desc → Queues → Option (Queues × List (Nat × List Beat))
  | [], q => some (q, [])
  | d :: ds, q =>
    match axisDesc c m junk d q with
    | none => none
    | some (q, bs) =>
      match axisDescs c m junk ds q with
      | none => none
      | some (q, fs) => some (q, (d.tag, bs) :: fs)

/-- a number of descriptors, from the reset state -/
def run (c : Cfg) (m junk : Nat → Nat) (ds : List Desc) : Option (Queues × List (Nat × List Beat)) :=
  axisDescs c m junk ds (ds.foldl (issueDesc c) fun _ => [])

end Corundum.DmaSource
