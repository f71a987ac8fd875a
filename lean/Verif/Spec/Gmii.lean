import Verif.Model.Gmii
/-! What users of the GMII, MII and RGMII endpoints rely on. -/
namespace Corundum.Gmii

/-- the frames sent -/
def sent : List Ev → List Frame
  | [] => []
  | .send f :: l => f :: sent l
  | .clk _ :: l => sent l

def rsent : List REv → List Frame
  | [] => []
  | .send f :: l => f :: rsent l
  | .clk :: l => rsent l

/-- nowhere before the first byte 0xD5 does 0xD5 appear across the boundary of two bytes -/
def Sync : List Nat → Prop
  | a :: b :: l => a = 0xD5 ∨ (¬ (a / 16 = 0x5 ∧ b % 16 = 0xD) ∧ Sync (b :: l))
  | _ => True

/-- error flags of a frame, one for each byte -/
def Frame.flags (f : Frame) : List Bool :=
  match f.error with
  | .none => List.replicate f.data.length false
  | .flag => List.replicate (f.data.length - 1) false ++ [true]
  | .list l => l.take f.data.length

/-- frames for the endpoints: bytes, at least one, flags for all of them; for GMII at least two bytes, otherwise nibbles that can be put together again -/
structure Frame.Good (k : Kind) (f : Frame) : Prop where
  bytes : ∀ b ∈ f.data, b < 256
  one : 1 ≤ f.data.length
  flags : ∀ l, f.error = .list l → f.data.length ≤ l.length
  gmii : k = .gmii → 2 ≤ f.data.length
  sync : k ≠ .gmii → Sync f.data

def Frame.expect (f : Frame) : Rx := ⟨f.data, f.flags⟩

end Corundum.Gmii
