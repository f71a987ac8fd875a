import Verif.Model.AxisAdapter

/-! What the transfers on an AXI stream mean: bytes and ends of frames. -/
namespace Corundum.AxisAdapter

variable {α : Type}

/-- bytes in use among the lanes -/
def bytes (data : List α) (keep : List Bool) : List α := (data.zip keep).filterMap fun x => if x.2 then some x.1 else none

/-- a byte, or the end of a frame with its ID, destination and user signals (these count in the last transfer of a frame) -/
inductive Item (α : Type)
  | byte (x : α)
  | fin (id dest user : Nat)
deriving DecidableEq, Repr

/-- what a transfer adds to the stream -/
def Beat.items (b : Beat α) : List (Item α) :=
  (bytes b.data b.keep).map .byte ++ if b.last then [.fin b.id b.dest b.user] else []

/-- what a list of transfers adds to the stream -/
def stream (l : List (Beat α)) : List (Item α) := l.flatMap Beat.items

/-- a transfer at the input as meant by its sender: signals that are not in use are zero, without `tkeep` all lanes are in use
(axis_adapter.v:38-40, :50-61) -/
def meant (c : Cfg) (b : Beat α) : Beat α :=
  { b with
    keep := if c.sKeep then b.keep else List.replicate b.keep.length true
    id := if c.idEn then b.id else 0
    dest := if c.destEn then b.dest else 0
    user := if c.userEn then b.user else 0 }

/-- as many lanes as the bus has -/
def Beat.Wide (b : Beat α) (n : Nat) : Prop := b.data.length = n ∧ b.keep.length = n

/-- the lanes in use are the lowest ones, and at least one -/
def Beat.Dense (b : Beat α) : Prop := ∃ n r, b.keep = List.replicate (n + 1) true ++ List.replicate r false

/-- all lanes in use -/
def Beat.Full (b : Beat α) : Prop := ∀ x ∈ b.keep, x = true

/-- lanes in use are the lowest ones; all of them except at the end of a frame -/
def Beat.Packed (b : Beat α) : Prop := b.Dense ∧ (b.last = false → b.Full)

/-- after reset (the contents of the registers are not reset, axis_adapter.v:218-222, :313-316) -/
def Reset (k : Kind) (c : Cfg) (st : St α) : Prop :=
  st.sv = false ∧ st.mv = false ∧ (match k with | .up => st.seg = 0 ∧ st.mb.Wide c.m | .down => True)

/-- the widths are as the variant demands -/
def Cfg.Ok (k : Kind) (c : Cfg) : Prop :=
  match k with
  | .up => 0 < c.s ∧ c.s ∣ c.m ∧ c.s < c.m ∧ c.mKeep = true
  | .down => 0 < c.m ∧ c.m ∣ c.s ∧ c.m < c.s ∧ c.sKeep = true ∧ (c.mKeep = false → c.m = 1)

/-- what the sender must respect: right width, lanes in use contiguous if the output has no `tkeep`, `tkeep` set if said to be unused -/
def Sane (c : Cfg) (b : Beat α) : Prop := b.Wide c.s ∧ (c.mKeep = false → b.Dense) ∧ (c.sKeep = false → b.Full)

end Corundum.AxisAdapter
