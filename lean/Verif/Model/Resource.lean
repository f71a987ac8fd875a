/-
Model of the hardware-resource (queue index) allocators.

* Python driver: `fpga/common/tb/mqnic.py` lines 354-376 (`class Resource`)
* Linux driver:  `modules/mqnic/mqnic_res.c` lines 46-78

Not modelled: `get_window` (address arithmetic `index*stride`), locking in the Linux driver
(every operation runs under `res->lock`, so operations are atomic), `kzalloc` failure.
-/
namespace Corundum.Resource

/-- The Python exceptions that can escape the modelled code. -/
inductive PyErr where
  | indexError
  deriving DecidableEq, Repr

/-- `Resource` (mqnic.py:354-361): only `count` and `free_list` matter. -/
structure Res where
  count : Nat
  free : List Nat
  deriving DecidableEq, Repr

/-- `Resource.__init__` (mqnic.py:355-361): `free_list = list(range(count))`. -/
def Res.init (count : Nat) : Res := { count := count, free := List.range count }

/-- `Resource.alloc` (mqnic.py:363-364): `return self.free_list.pop(0)`;
`pop` on an empty list raises `IndexError`. -/
def Res.alloc (r : Res) : Except PyErr (Nat × Res) :=
  match r.free with
  | [] => .error .indexError
  | i :: rest => .ok (i, { r with free := rest })

/-- Insert into an ascending list. -/
def ins (a : Nat) : List Nat → List Nat
  | [] => [a]
  | b :: t => if a ≤ b then a :: b :: t else b :: ins a t

/-- Python's `list.sort()` on a list of ints: the ascending rearrangement (insertion sort is used as
the executable definition; the result of sorting ints does not depend on the algorithm). -/
def pySort : List Nat → List Nat
  | [] => []
  | a :: t => ins a (pySort t)

/-- `Resource.free` (mqnic.py:366-368): `free_list.append(index); free_list.sort()`. -/
def Res.release (r : Res) (index : Nat) : Res :=
  { r with free := pySort (r.free ++ [index]) }

/-- API calls. -/
inductive Op where
  | alloc
  | free (index : Nat)
  deriving DecidableEq, Repr

/-- One API call; the output of `alloc` is the returned index or the exception. -/
def Res.step (r : Res) : Op → Res × Option (Except PyErr Nat)
  | .alloc =>
    match r.alloc with
    | .error e => (r, some (.error e))
    | .ok (i, r') => (r', some (.ok i))
  | .free i => (r.release i, none)

/-! ### Linux driver -/

/-- `struct mqnic_res` (mqnic_res.c:8-36): a bitmap of `count` bits, `true` = in use. -/
structure Bmap where
  bits : List Bool
  deriving DecidableEq, Repr

/-- `mqnic_create_res`: `bitmap_zalloc(count)` (mqnic_res.c:25). -/
def Bmap.init (count : Nat) : Bmap := { bits := List.replicate count false }

/-- `mqnic_res_alloc` (mqnic_res.c:46-55): `bitmap_find_free_region(bmap, count, 0)` finds the
first clear bit, sets it and returns its index, or returns `-ENOMEM` (here `none`). -/
def Bmap.alloc (b : Bmap) : Option (Nat × Bmap) :=
  match b.bits.findIdx? (fun x => !x) with
  | none => none
  | some i => some (i, { bits := b.bits.set i true })

/-- `mqnic_res_free` (mqnic_res.c:57-65): range check, then `bitmap_clear(bmap, index, 1)`. -/
def Bmap.release (b : Bmap) (index : Int) : Bmap :=
  if index < 0 ∨ index ≥ b.bits.length then b
  else { bits := b.bits.set index.toNat false }

/-- API calls of the Linux allocator. -/
inductive COp where
  | alloc
  | free (index : Int)
  deriving DecidableEq, Repr

def Bmap.step (b : Bmap) : COp → Bmap × Option (Option Nat)
  | .alloc =>
    match b.alloc with
    | none => (b, some none)
    | some (i, b') => (b', some (some i))
  | .free i => (b.release i, none)

end Corundum.Resource
