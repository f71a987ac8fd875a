import Verif.Model.PcieEnum

/-! Routing of packets in both directions through the tree of bridges, switches and devices of the PCIe simulation
(fpga/lib/pcie/tb/pcie.py:2611-2908, :2973-3066, :3215-3402).

The tree is the one of `Model/PcieEnum`: a bus holds functions, a bridge leads to a further bus.  A function is named by its path
(positions from bus 0 down); bus 0 is the bus of the root complex.  Two kinds of bus alternate: the bus inside a root complex or a switch
(`BusPort`, the bridge above it picks the port, pcie.py:2799-2876), and the link below a root port or switch port (`Port`, everything
goes to the one device or switch at its other end).  Buses at even depth are of the first kind, links are of the second.

Simplified: a packet is followed from hop to hop without the delays and queues of the links, and without the checks of `tlp.check`;
functions know the bus they are on (`bus_num` is captured from configuration requests, pcie.py:1832, :2987); broadcast and local messages
are left out. -/
namespace Corundum.PcieRoute
open Corundum.PcieEnum

/-- bus, device and function number (`PcieId`) -/
abbrev Id := Nat × Nat × Nat

/-- what routing looks at: completions carry the ID of the requester, ID routed messages the IDs of sender and receiver, memory and IO
requests an address -/
inductive Pkt
  | cpl (req : Id)
  | msg (req dst : Id)
  | req (addr : Nat) (io : Bool)
deriving DecidableEq, Repr

/-- is the packet for the function at path `p` on bus `bus` (pcie.py:2639, :2649, :2659, :2669, :2816, :2825, :2833, :2842, :3011-3013,
:3023, :3041); `lab` gives device and function numbers -/
def own (lab : List Nat → Nat × Nat) (k : Pkt) (p : List Nat) (bus : Nat) (f : Fn) : Bool :=
  match k with
  | .cpl r => decide (r = (bus, lab p))
  | .msg _ d => decide (d = (bus, lab p))
  | .req a io => decide (matchBar a io 0 f.regs ≠ [])

/-- does a bridge pass the packet on towards its secondary bus (pcie.py:2642, :2652, :2662, :2672, :2721, :2733, :2744, :2755) -/
def pass (k : Pkt) (b : Br) : Bool :=
  match k with
  | .cpl r => b.sec ≤ r.1 && r.1 ≤ b.sub
  | .msg _ d => b.sec ≤ d.1 && d.1 ≤ b.sub
  | .req a io => b.window a io

/-- does the switch (`link = false`) pick the port (pcie.py:2819, :2828, :2836, :2845): as `pass`, but for messages it looks at the
sender.  On a link there is nothing to pick. -/
def sel (k : Pkt) (link : Bool) (b : Br) : Bool :=
  match k with
  | .msg r _ => if link then pass k b else b.sec ≤ r.1 && r.1 ≤ b.sub
  | _ => pass k b

/-- where a packet ends: handled by a function; not taken by anything on the bus below a bridge (path of the bridge, `turned`: that bridge
had got the packet from this same bus); discarded by a bridge -/
inductive Hit
  | got (p : List Nat)
  | lost (p : List Nat) (turned : Bool)
  | drop (p : List Nat)
deriving DecidableEq, Repr

/-- prefix the path -/
def Hit.push (i : Nat) : Hit → Hit
  | .got p => .got (i :: p)
  | .lost p t => .lost (i :: p) t
  | .drop p => .drop (i :: p)

/-- `lost` on the own bus of the bridge that sent it down (the flag `from_downstream`, pcie.py:2724, :2746) -/
def Hit.turn : Hit → Hit
  | .lost [] _ => .lost [] true
  | h => h

/-- a packet on its way down, on the bus `bus` with functions from position `i` on (`route_downstream_tlp` and `upstream_recv`,
pcie.py:2616-2697, :2799-2876, :2978-3057) -/
def down (lab : List Nat → Nat × Nat) (k : Pkt) (link : Bool) (bus : Nat) : Nat → Seg → Hit
  | _, .nil => .lost [] false
  | i, .ep f rest => if own lab k [i] bus f then .got [i] else down lab k link bus (i + 1) rest
  | i, .br f b child rest =>
    if own lab k [i] bus f then .got [i]
    else if sel k link b then
      if pass k b then (down (fun p => lab (i :: p)) k (!link) b.sec 0 child).push i else .drop [i]
    else down lab k link bus (i + 1) rest

/-- a packet on its way up, handed to `downstream_recv` of the bridge at path `q` (pcie.py:2707-2774): `none` if it leaves bus `bus`
towards the root -/
def up (lab : List Nat → Nat × Nat) (k : Pkt) (link : Bool) (bus : Nat) : Nat → Seg → List Nat → Option Hit
  | _, .nil, _ => none
  | i, .ep _ rest, q => up lab k link bus (i + 1) rest q
  | _, .br _ _ _ _, [] => none
  | i, .br f b child rest, j :: q =>
    if i = j then
      match up (fun p => lab (i :: p)) k (!link) b.sec 0 child q with
      | some h => some (h.push i)
      | none =>
        if own lab k [i] bus f then some (.got [i])
        else if pass k b then some ((down (fun p => lab (i :: p)) k (!link) b.sec 0 child).turn.push i)
        else none
    else up lab k link bus (i + 1) rest (j :: q)

/-- the root complex or a place in the tree -/
inductive Dest
  | rc
  | tree (h : Hit)
deriving DecidableEq, Repr

/-- the host bridge: bus numbers 0 to 255, windows as set by `enumerate` (pcie.py:2902-2904, :4497-4502) -/
def host (base lim : Lim) : Br := ⟨0, 0, 255, base.io, lim.io, base.mem, lim.mem, base.pf, lim.pf⟩

/-- is the packet for device 0 on bus 0, the root complex itself (pcie.py:2722, :2734) -/
def toRoot : Pkt → Bool
  | .cpl r => r.1 == 0 && r.2.1 == 0
  | .msg _ d => d.1 == 0 && d.2.1 == 0
  | .req _ _ => false

/-- a packet handed to `downstream_recv` of the bridge at path `q`, `[]` being the host bridge.  (The host bridge has no BARs, and with
`root` set does not look at its own ID.) -/
def upFrom (lab : List Nat → Nat × Nat) (o : Seg) (base lim : Lim) (k : Pkt) (q : List Nat) : Dest :=
  match up lab k false 0 0 o q with
  | some h => .tree h
  | none =>
    if pass k (host base lim) then
      if toRoot k then .rc else .tree (down lab k false 0 0 o).turn
    else .rc

/-- a packet sent by the root complex (pcie.py:3374-3381, :2616-2697): `none` if the host bridge discards it -/
def rootSend (lab : List Nat → Nat × Nat) (o : Seg) (base lim : Lim) (k : Pkt) : Option Hit :=
  if pass k (host base lim) then some (down lab k false 0 0 o) else none

/-- is there a bridge at path `q` -/
def isBr : Nat → Seg → List Nat → Bool
  | _, .nil, _ => false
  | i, .ep _ rest, q => isBr (i + 1) rest q
  | _, .br _ _ _ _, [] => false
  | i, .br _ _ child rest, j :: q => if i = j then q.isEmpty || isBr 0 child q else isBr (i + 1) rest (j :: q)

/-- a packet sent by the function at path `q`: a bridge hands it to its own `downstream_recv` (pcie.py:2776-2778), others to the bridge
above them (pcie.py:1780-1781, :3059-3066, :3093) -/
def fnSend (lab : List Nat → Nat × Nat) (o : Seg) (base lim : Lim) (k : Pkt) (q : List Nat) : Dest :=
  upFrom lab o base lim k (if isBr 0 o q then q else q.dropLast)

/-- the bus below the bridge at path `q`: number, functions -/
def below (bus : Nat) : Nat → Seg → List Nat → Option (Nat × Seg)
  | _, .nil, _ => none
  | i, .ep _ rest, q => below bus (i + 1) rest q
  | _, .br _ _ _ _, [] => none
  | i, .br _ b child rest, j :: q =>
    if i = j then if q.isEmpty then some (b.sec, child) else below b.sec 0 child q else below bus (i + 1) rest (j :: q)

/-- the answer to a request that nothing on the bus below the bridge `p` takes (pcie.py:2865-2876, :3025-3055): where the completion with
status "unsupported request" for requester `r` ends; `none` if there is no answer.
* bus of a switch or root complex: the completion goes back down if the request came from there, else up from the bridge;
* link: a device answers (memory writes it ignores), the bridge of a switch does not (pcie.py:2664-2677). -/
def unsupported (lab : List Nat → Nat × Nat) (o : Seg) (base lim : Lim) (write : Bool) (r : Id) (p : List Nat) (turned : Bool) :
    Option Dest :=
  match (if p = [] then some (0, o) else below 0 0 o p) with
  | none => none
  | some (bus, s) =>
    if p.length % 2 = 0 then
      if turned then
        match down (fun x => lab (p ++ x)) (.cpl r) false bus 0 s with
        | .got x => some (.tree (.got (p ++ x)))
        | .lost x t => some (.tree (.lost (p ++ x) t))
        | .drop x => some (.tree (.drop (p ++ x)))
      else if p = [] then some .rc
      else some (upFrom lab o base lim (.cpl r) p.dropLast)
    else
      match s with
      | .ep _ _ => if write then none else some (upFrom lab o base lim (.cpl r) p)
      | _ => none

end Corundum.PcieRoute
