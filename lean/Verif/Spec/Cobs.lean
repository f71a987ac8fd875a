import Verif.Model.Cobs
/-!
Consistent overhead byte stuffing, defined on byte lists.
-/
namespace Corundum.Cobs

/-- COBS encoding of a frame. `run` are the non-zero bytes of the block being collected; a block is written as its length plus one followed by its bytes;
a block of 254 bytes (code 255) is not followed by an implicit zero. -/
def enc : List Nat → List Nat → List Nat
  | run, [] => (run.length + 1) :: run
  | run, x :: xs =>
    if x = 0 then (run.length + 1) :: run ++ enc [] xs
    else if run.length = 253 then 255 :: (run ++ [x]) ++ (if xs = [] then [] else enc [] xs)
    else enc (run ++ [x]) xs

/-- blocks of a frame that is marked bad at its last byte (which is discarded) -/
def encBad : List Nat → List Nat → List Nat
  | run, [] => (run.length + 1) :: run
  | run, [_] => (run.length + 1) :: run
  | run, x :: y :: xs =>
    if x = 0 then (run.length + 1) :: run ++ encBad [] (y :: xs)
    else if run.length = 253 then 255 :: (run ++ [x]) ++ encBad [] (y :: xs)
    else encBad (run ++ [x]) (y :: xs)

def plain (l : List Nat) : List Beat := l.map (fun x => ⟨x, false, false⟩)

/-- a byte list as a frame: `last` on the final byte, with the given error flag -/
def frame (bad : Bool) : List Nat → List Beat
  | [] => []
  | [x] => [⟨x, true, bad⟩]
  | x :: y :: xs => ⟨x, false, false⟩ :: frame bad (y :: xs)

abbrev mark := frame false

/-- encoded frame on the wire; `az`: zero delimiter appended -/
def wire (az : Bool) (l : List Nat) : List Beat := if az then plain l ++ [⟨0, true, false⟩] else mark l

/-- encoded bad frame on the wire -/
def wireBad (az : Bool) (l : List Nat) : List Beat := plain l ++ (if az then [⟨2, false, false⟩, ⟨0, true, true⟩] else [⟨2, true, true⟩])

/-- what the encoder must send for the frame `xs` -/
def encoded (az : Bool) (bad : Bool) (xs : List Nat) : List Beat := if bad then wireBad az (encBad [] xs) else wire az (enc [] xs)

theorem frame_append (bad : Bool) (a b : List Nat) (h : b ≠ []) : frame bad (a ++ b) = plain a ++ frame bad b := by
  induction a with
  | nil => rfl
  | cons x a ih =>
    cases hab : a ++ b with
    | nil => simp at hab; exact absurd hab.2 h
    | cons y ys =>
      rw [List.cons_append, hab, frame, ← hab, ih]
      rfl

theorem plain_append (a b : List Nat) : plain (a ++ b) = plain a ++ plain b := by simp [plain]

theorem wire_append (az : Bool) (a b : List Nat) (h : b ≠ []) : wire az (a ++ b) = plain a ++ wire az b := by
  unfold wire
  cases az
  · simp only [Bool.false_eq_true, if_false]; exact frame_append false a b h
  · simp only [if_true]; rw [plain_append, List.append_assoc]

theorem wireBad_append (az : Bool) (a b : List Nat) : wireBad az (a ++ b) = plain a ++ wireBad az b := by
  unfold wireBad; rw [plain_append, List.append_assoc]

theorem enc_ne (run xs : List Nat) : enc run xs ≠ [] := by
  induction xs generalizing run with
  | nil => simp [enc]
  | cons x xs ih =>
    rw [enc]
    split
    · simp
    · split
      · simp
      · exact ih _

end Corundum.Cobs
