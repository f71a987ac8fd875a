/-!
PCIe capability lists: /repo/fpga/lib/pcie/tb/pcie.py `PcieCapList` (:231-318); `PcieExtCapList` (:321-326) differs in `start`.

Simplifications
* A capability is its id, length, offset (in double words) and next pointer; read and write callbacks and versions are left out.
* `list.sort(key=offset)` is the stable `List.mergeSort`.
* The recursive call for bumped capabilities (:315-318) registers with no offset, so bumps nothing: it is unfolded once.
-/
namespace Corundum.PcieCap

structure Cap where
  id : Nat
  len : Nat
  off : Nat
  next : Option Nat := none
deriving DecidableEq, Repr

/-- `find_by_reg` (pcie.py:244-248) -/
def findByReg (l : List Cap) (reg : Nat) : Option Cap := l.find? fun c => c.off ≤ reg ∧ reg < c.off + c.len

/-- overlap test for a fixed offset (pcie.py:295) -/
def hit (c : Cap) (off len : Nat) : Bool := c.off ≤ off + len - 1 ∧ off ≤ c.off + c.len - 1

/-- automatic placement (pcie.py:300-303) -/
def place (start len : Nat) (l : List Cap) : Nat :=
  l.foldl (fun o c => if c.off < o + len - 1 ∧ o ≤ c.off + c.len - 1 then c.off + c.len else o) start

/-- next pointers of at least two capabilities (pcie.py:310-313) -/
def link : List Cap → List Cap
  | [] => []
  | [c] => [{ c with next := some 0 }]
  | a :: b :: r => { a with next := some (b.off * 4) } :: link (b :: r)

/-- pcie.py:310-313: the loop does nothing for a single capability -/
def relink : List Cap → List Cap
  | [] => []
  | [c] => [c]
  | l => link l

/-- append, sort, update pointers (pcie.py:305-313) -/
def add (l : List Cap) (c : Cap) : List Cap := relink ((l ++ [c]).mergeSort fun a b => a.off ≤ b.off)

/-- `register` of a capability without an offset -/
def addAuto (start : Nat) (l : List Cap) (c : Cap) : List Cap := add l { c with off := place start c.len l }

/-- `register` of a capability with an offset: overlapping ones are taken out and registered again (pcie.py:291-298, :315-318) -/
def addFixed (start : Nat) (l : List Cap) (c : Cap) : List Cap :=
  (l.filter (hit · c.off c.len)).foldl (addAuto start) (add (l.filter fun x => !hit x c.off c.len) c)

/-- `register(cap_id, length=len, offset=off)` (pcie.py:261-318); `none` is the exception for a missing length. An offset of 0 counts as
no offset. -/
def register (start : Nat) (l : List Cap) (id : Nat) (len off : Option Nat) : Option (List Cap) :=
  match l.find? (·.id == id) with
  | some c =>
    let c := { c with len := if len.getD 0 ≠ 0 then len.getD 0 else c.len, off := if off.getD 0 ≠ 0 then off.getD 0 else c.off }
    let l := l.filter (·.id != id)
    if c.len = 0 then none else if c.off ≠ 0 then some (addFixed start l c) else some (addAuto start l c)
  | none =>
    if len.getD 0 = 0 then none
    else if off.getD 0 ≠ 0 then some (addFixed start l ⟨id, len.getD 0, off.getD 0, none⟩)
    else some (addAuto start l ⟨id, len.getD 0, 0, none⟩)

/-- a sequence of calls -/
def registers (start : Nat) : List Cap → List (Nat × Option Nat × Option Nat) → Option (List Cap)
  | l, [] => some l
  | l, (id, len, off) :: r => (register start l id len off).bind fun l' => registers start l' r

/-- Follow the next pointers from byte address `ptr`, as software does by reading the header register of each capability: `w` is the width
of the pointer field (8, or 12 for extended capabilities). `none` where a pointer is missing (`PcieCap.read_register` :210-214 raises
`TypeError` on `None`) or does not lead to a header. -/
def walk (w : Nat) (l : List Cap) : Nat → Nat → Option (List Nat)
  | 0, _ => none
  | fuel + 1, ptr =>
    if ptr = 0 then some []
    else do
      let c ← findByReg l (ptr / 4)
      guard (c.off = ptr / 4)
      let n ← c.next
      let r ← walk w l fuel (n % 2 ^ w)
      return c.id :: r

end Corundum.PcieCap
