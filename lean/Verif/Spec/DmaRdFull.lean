import Verif.Model.DmaRdFull

/-! What goes in and out of the status FIFO over a run. -/
namespace Corundum.DmaRdFull

variable {A : Type}

def run (s : St A) : List (In A) → St A
  | [] => s
  | i :: is => run (step s i) is

def accs (s : St A) : List (In A) → List A
  | [] => []
  | i :: is => (acc s i).toList ++ accs (step s i) is

def pops (s : St A) : List (In A) → List A
  | [] => []
  | i :: is => (popped s i).toList ++ pops (step s i) is

end Corundum.DmaRdFull
