import Verif.Model.Xgmii
/-! What users of the XGMII endpoints rely on. -/
namespace Corundum.Xgmii

/-- the frames sent -/
def sent : List Ev → List Frame
  | [] => []
  | .send f :: l => f :: sent l
  | .clk _ :: l => sent l

/-- number of the first byte with an error flag -/
def Frame.firstError (f : Frame) : Option Nat :=
  match f.error with
  | .none => none
  | .flag => some (f.data.length - 1)
  | .list l => let k := l.findIdx (· = true); if k < f.data.length then some k else none

/-- frames for an interface of `bw` lanes: bytes, starting with a preamble byte, at least a word long, flags for all bytes, no error in the first `bw` bytes -/
structure Frame.Good (bw : Nat) (f : Frame) : Prop where
  bytes : ∀ b ∈ f.data, b < 256
  pre : f.data.head? = some 0x55
  long : bw ≤ f.data.length
  flags : ∀ l, f.error = .list l → f.data.length ≤ l.length
  err : ∀ k, f.firstError = some k → bw ≤ k

/-- what the sink makes of a frame: the frame, cut after the first error -/
def Frame.expect (f : Frame) : Rx :=
  match f.firstError with
  | none => ⟨f.data, List.replicate f.data.length false, List.replicate f.data.length false⟩
  | some k => ⟨f.data.take k ++ [0xfe], List.replicate k false ++ [true], List.replicate k false ++ [true]⟩

/-- the characters on the interface -/
def chars (bw : Nat) (ws : List Word) : List Ch := ws.flatMap fun w => (List.range bw).map w.lane

/-- counting the characters from each end of frame up to the next start: `cur` is the count since the last end, if no frame has started since -/
def gapStep (st : Option Nat × List Nat) (x : Ch) : Option Nat × List Nat :=
  if x = (true, 0xfd) then (some 1, st.2)
  else match st.1 with
    | none => st
    | some n => if x = (true, 0xfb) then (none, st.2 ++ [n]) else (some (n + 1), st.2)

/-- the lengths of the gaps between frames, the terminating character included -/
def gaps (l : List Ch) : List Nat := (l.foldl gapStep (none, [])).2

end Corundum.Xgmii
