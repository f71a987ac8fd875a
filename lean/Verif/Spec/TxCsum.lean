import Verif.Model.TxCsum
import Verif.Spec.Checksum

/-! What transmit checksum offload should do with a frame. -/
namespace Corundum.TxCsum

/-- the bytes of a frame, lane by lane; a byte that is not there is zero -/
def bytesOf (P : Params) (f : List Beat) : List Nat := f.flatMap fun b => (List.range P.K).map fun j => if b.keep j then b.lane j else 0

/-- the two bytes of a word exchanged -/
def swap (x : Nat) : Nat := x % 256 * 256 + x / 256

/-- the ones' complement sum of the 16-bit words from the start position to the end of the frame, with the initial value -/
def sumOf (P : Params) (c : Cmd) (f : List Beat) : Nat :=
  let t := Spec.ocSum ((bytesOf P f).drop c.start)
  if P.useInit then Spec.ocAdd t (if c.start % 2 = 1 then swap c.init else c.init) else t

/-- the checksum field -/
def field (P : Params) (c : Cmd) (f : List Beat) : Nat := 65535 - sumOf P c f

/-- word `n` of the frame with the checksum `v` at byte positions `offset`, `offset + 1` of the frame -/
def putBeat (P : Params) (offset v n : Nat) (b : Beat) : Beat :=
  { b with lane := fun j =>
      if j < P.K ∧ n * P.K + j = offset then v / 256
      else if j < P.K ∧ n * P.K + j = offset + 1 then v % 256
      else b.lane j }

/-- the frame as it should leave -/
def fix (P : Params) (x : Cmd × List Beat) : List Beat :=
  if x.1.en then x.2.mapIdx (putBeat P x.1.offset (field P x.1 x.2)) else x.2

/-- lanes hold bytes, the initial value has 16 bits, and the checksum FIFO stays ready while nothing is written to it -/
structure Legal (g : G) (i : In) : Prop where
  byte : ∀ b ∈ i.beat, ∀ j, b.lane j < 256
  init : ∀ c ∈ i.cmd, c.init < 65536
  held : g.held = true → i.cready = true

def LegalRun (P : Params) : Sys → List In → Prop
  | _, [] => True
  | x, i :: is => Legal x.g i ∧ LegalRun P (step P x i) is

end Corundum.TxCsum
