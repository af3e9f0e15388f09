import Verif.Model.Programs
import Verif.Spec.Box
import Verif.Spec.ToF

/-! # Specification of the programs under src/tests -/

namespace Mythical.ProgramSpec
variable {K : Type} [Field K] [LinearOrder K]

/-- `m'` has the entries of `m` in some order, and so have its rows. -/
def Rearranged {V : Type} (m' m : IMap (IMap V)) : Prop :=
  ∃ m1 : IMap (IMap V), m1.Perm m ∧ List.Forall₂ (fun a b => a.1 = b.1 ∧ a.2.Perm b.2) m' m1

/-- The maps of rates are proper ones, without empty rows, and all rates are positive. -/
def Proper (mem : Addr → K) (m : IMap (IMap Addr)) : Prop :=
  m.WF ∧ ∀ ir ∈ m, ir.2.WF ∧ ir.2 ≠ [] ∧ ∀ na ∈ ir.2, 0 < mem na.2

end Mythical.ProgramSpec
