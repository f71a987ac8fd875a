/-!
AXI-Lite bus master and memory of the simulation: fpga/lib/axi/tb/axil.py.

The master turns each command into words on the address and data channels, and puts the answers to a
command together again. Each of the channels (write address, write data, write response, read address,
read data) delivers its entries in order (axil.py:234-276, 350-374 and 460-545: an entry is popped only
after the one before it was accepted), so channels are lists and the pause signals and latencies have no
effect on contents. `none` stands for an exception or a process that waits for ever. Simplified:
addresses are exact, `int(addr/bw)` at axil.py:170, 287, 313, 467, 517 goes through a float; the
`prot` argument, which is only copied, is left out; the address signal is wide enough.
-/
namespace Corundum.Axil

/-- a write command: axil.py:74-76 -/
structure Write where
  addr : Nat
  data : List Nat
deriving DecidableEq, Repr

/-- a read command: axil.py:70-72 -/
structure Read where
  addr : Nat
  len : Nat
deriving DecidableEq, Repr

/-- entries of the write address queue and the write data queue, which are filled together:
axil.py:205, 207 -/
structure Word where
  addr : Nat
  val : Nat
  strb : Nat
deriving DecidableEq, Repr

/-- axil.py:178, 291 -/
def cycles (bw addr len : Nat) : Nat := (len + bw - 1 + addr % bw) / bw

/-- axil.py:173, 316; `bw` is added so that 0 - 1 wraps as it does in Python -/
def endOffset (bw addr len : Nat) : Nat := (addr + len + bw - 1) % bw + 1

/-- the loop over the lanes: axil.py:200-203 -/
def pack : Nat → Nat → List Nat → Nat
  | val, _, [] => val
  | val, j, d :: ds => pack (val ||| d <<< (j * 8)) (j + 1) ds

/-- the loop over the words of one write, axil.py:188-208: `r` words left, word number `k`, byte
`offset`; `data[offset]` past the end raises IndexError -/
def words (bw : Nat) (c : Write) : Nat → Nat → Nat → Option (List Word)
  | 0, _, _ => some []
  | r + 1, k, offset =>
    let start := if k = 0 then c.addr % bw else 0
    let stop := if r = 0 then endOffset bw c.addr c.data.length else bw
    let strb := 2 ^ bw - 1
    let strb := if k = 0 then strb &&& (((2 ^ bw - 1) <<< (c.addr % bw)) &&& (2 ^ bw - 1)) else strb
    let strb :=
      if r = 0 then strb &&& ((2 ^ bw - 1) >>> (bw - endOffset bw c.addr c.data.length)) else strb
    if offset + (stop - start) ≤ c.data.length then
      let val := pack 0 start ((c.data.drop offset).take (stop - start))
      match words bw c r (k + 1) (offset + (stop - start)) with
      | none => none
      | some ws => some (⟨c.addr / bw * bw + start + k * bw, val, strb⟩ :: ws)
    else none

/-- `write_logic` for one command: axil.py:167-208 -/
def writeCmd (bw : Nat) (c : Write) : Option (List Word) :=
  words bw c (cycles bw c.addr c.data.length) 0 0

/-- `write_logic`: axil.py:162-208 -/
def writeCmds (bw : Nat) : List Write → Option (List Word)
  | [] => some []
  | c :: cs =>
    match writeCmd bw c, writeCmds bw cs with
    | some ws, some ws' => some (ws ++ ws')
    | _, _ => none

/-- contents of the memory map: axil.py:383 -/
abbrev Mem := Nat → Nat

/-- one word written by the memory: axil.py:467, 473, 486-495 -/
def ramWrite (bw size : Nat) (m : Mem) (w : Word) : Mem :=
  (List.range bw).foldl (fun m i =>
    if w.strb.testBit i then
      (fun x => if x = w.addr / bw * bw % size + i then (w.val >>> (8 * i)) % 256 else m x)
    else m) m

/-- one word read by the memory: axil.py:517, 523-531 -/
def ramRead (bw size : Nat) (m : Mem) (addr : Nat) : Nat :=
  (List.range bw).reverse.foldl (fun v i => (v <<< 8) + m (addr / bw * bw % size + i)) 0

/-- the loop of `write_resp_logic`: axil.py:220-227; `r` words left -/
def bresp : Nat → Nat → List Nat → Option (Nat × List Nat)
  | 0, resp, q => some (resp, q)
  | _ + 1, _, [] => none
  | r + 1, resp, x :: q => bresp r (if x ≠ 0 then x else resp) q

/-- `write_resp_logic`: axil.py:211-231: address, length and response of each command, and the
responses left over -/
def writeResps (bw : Nat) : List Write → List Nat → Option (List (Nat × Nat × Nat) × List Nat)
  | [], q => some ([], q)
  | c :: cs, q =>
    match bresp (cycles bw c.addr c.data.length) 0 q with
    | none => none
    | some (resp, q) =>
      match writeResps bw cs q with
      | none => none
      | some (rs, q) => some ((c.addr, c.data.length, resp) :: rs, q)

/-- `read_logic` for one command: axil.py:284-303 -/
def readCmd (bw : Nat) (c : Read) : List Nat :=
  (c.addr / bw * bw + c.addr % bw) ::
    (List.range' 1 (cycles bw c.addr c.len - 1)).map fun k => c.addr / bw * bw + k * bw

/-- `read_logic`: axil.py:279-303 -/
def readCmds (bw : Nat) (cs : List Read) : List Nat := cs.flatMap (readCmd bw)

/-- the loop over the lanes: axil.py:339-340 -/
def unpack (v start stop : Nat) : List Nat :=
  (List.range (stop - start)).map fun i => (v >>> ((start + i) * 8)) % 256

/-- the loop of `read_resp_logic`: axil.py:322-340; `r` words left, word number `k` -/
def rdata (bw : Nat) (c : Read) :
    Nat → Nat → List Nat → Nat → List (Nat × Nat) → Option ((List Nat × Nat) × List (Nat × Nat))
  | 0, _, data, resp, q => some ((data, resp), q)
  | _ + 1, _, _, _, [] => none
  | r + 1, k, data, resp, x :: q =>
    let start := if k = 0 then c.addr % bw else 0
    let stop := if r = 0 then endOffset bw c.addr c.len else bw
    rdata bw c r (k + 1) (data ++ unpack x.1 start stop) (if x.2 ≠ 0 then x.2 else resp) q

/-- `read_resp_logic`: axil.py:306-347: address, data and response of each command, and the
responses left over -/
def readData (bw : Nat) :
    List Read → List (Nat × Nat) → Option (List (Nat × List Nat × Nat) × List (Nat × Nat))
  | [], q => some ([], q)
  | c :: cs, q =>
    match rdata bw c (cycles bw c.addr c.len) 0 [] 0 q with
    | none => none
    | some ((data, resp), q) =>
      match readData bw cs q with
      | none => none
      | some (rs, q) => some ((c.addr, data, resp) :: rs, q)

end Corundum.Axil
