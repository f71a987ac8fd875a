import Verif.Model.MacCtrlTx
/-!
What is asked of the transmission of control frames, in terms of the interfaces.
-/
namespace Corundum.MacCtrl

/-- the 60 bytes of a control frame (IEEE 802.3 annex 31A): addresses, type and opcode most significant byte first,
the parameters, zeros -/
def frameBytes (r : Req) : List Nat :=
  r.dst.reverse ++ r.src.reverse ++ r.etype.reverse ++ r.opcode.reverse ++ r.params ++ List.replicate (44 - r.params.length) 0

/-- the number of transfers of 60 bytes -/
def beats (lanes : Nat) : Nat := if 60 % lanes = 0 then 60 / lanes else 60 / lanes + 1

/-- the control frame as transfers -/
def ctrlFrame (lanes : Nat) (r : Req) : List Beat :=
  (List.range (beats lanes)).map fun p =>
    { data := (List.range lanes).map fun j => (frameBytes r).getD (lanes * p + j) 0
      keep := (List.range lanes).map fun j => decide (lanes * p + j < 60)
      last := decide (p + 1 = beats lanes)
      id := r.id, dest := r.dest, user := r.user }

/-- the fields have their widths, :78-86 -/
structure Req.Ok (params : Nat) (r : Req) : Prop where
  dst : r.dst.length = 6
  src : r.src.length = 6
  etype : r.etype.length = 2
  opcode : r.opcode.length = 2
  params : r.params.length = params

/-- data transfer accepted in a cycle -/
def dataIn (s : Tx) (i : TxIn) : List Beat := if s.sready then i.s.toList else []

/-- request accepted in a cycle -/
def reqIn (s : Tx) (i : TxIn) : List Req := if s.mready && i.mcfValid then [i.mcf] else []

/-- transfer put out in a cycle -/
def beatOut (s : Tx) (i : TxIn) : List Beat := if i.ready then s.out.m.toList else []

/-- a sequence gathered over the cycles before n -/
def upTo (f : Nat → List α) : Nat → List α
  | 0 => []
  | n + 1 => upTo f n ++ f n

/-- a piece of the merged stream: one data transfer, or one whole control frame -/
inductive Piece where
  | data (b : Beat)
  | ctrl (r : Req)
deriving DecidableEq, Repr

def Piece.beats (lanes : Nat) : Piece → List Beat
  | .data b => [b]
  | .ctrl r => ctrlFrame lanes r

def Piece.isData : Piece → Option Beat
  | .data b => some b
  | .ctrl _ => none

def Piece.isCtrl : Piece → Option Req
  | .data _ => none
  | .ctrl r => some r

/-- inside a data frame after these pieces; `none` if a control frame is inside of a data frame -/
def inside (ps : List Piece) : Option Bool :=
  ps.foldl (fun a p => match a, p with
    | none, _ => none
    | some _, .data b => some (!b.last)
    | some a, .ctrl _ => if a then none else some false) (some false)

/-- a request stays until it is accepted -/
def Held (c : Cfg) (ins : Nat → TxIn) : Prop :=
  ∀ n, (ins n).mcfValid = true → (tx c ins n).mready = false → (ins (n + 1)).mcfValid = true ∧ (ins (n + 1)).mcf = (ins n).mcf

/-- four-phase handshake: a pause request stays until the acknowledge is high, and comes again only after it is low -/
def FourPhase (c : Cfg) (ins : Nat → TxIn) : Prop :=
  ∀ n, (tx c ins n).ack = !(ins n).pause → (ins (n + 1)).pause = (ins n).pause

end Corundum.MacCtrl
