import Verif.Model.System

/-! # Specification vocabulary for walkers -/

namespace Mythical.WalkerSpec
open Mythical World
variable {K : Type}

/-- The call may change the site on which walker `h` says it is: creating the walker, `occupySite`, `hop`. -/
def MovesSite (op : Op K) (h : Int) : Prop :=
  op = .newWalker h ∨ (∃ i, op = .walkerOccupy h i) ∨ ∃ wid a, op = .hop wid h a

/-- The call may change the site to which walker `h` wants to go: creating the walker, `setPotentialSite`, `initializeWalkers` with
the walker in the list, `hop`. -/
def MovesAim (op : Op K) (h : Int) : Prop :=
  op = .newWalker h ∨ (∃ i, op = .walkerSetPotential h i) ∨ (∃ l, op = .initializeWalkers l ∧ ∃ a ∈ l, a.handle = h) ∨
    ∃ wid a, op = .hop wid h a

/-- The call may change the dwell time of walker `h`: creating the walker, `setDwellTime`, `initializeWalkers` with the walker in the
list, `hop`. -/
def MovesDwell (op : Op K) (h : Int) : Prop :=
  op = .newWalker h ∨ (∃ t, op = .walkerSetDwell h t) ∨ (∃ l, op = .initializeWalkers l ∧ ∃ a ∈ l, a.handle = h) ∨
    ∃ wid a, op = .hop wid h a

end Mythical.WalkerSpec
