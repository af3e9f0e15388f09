import Verif.Model.RateContainer

/-! # Specification vocabulary for `Rate_Container` -/

namespace Mythical.RateSpec
open Mythical RateContainer

/-- A C++ `Rate_Map`: keys are distinct, in the map and in each row. -/
def IsMap (m : RateMap) : Prop := m.WF ∧ ∀ sr ∈ m, sr.2.WF

/-- The argument of a call is a proper map. -/
def ValidOp : Op → Prop
  | .addRates m => IsMap m
  | _ => True

/-- Entry of a nested map. -/
def entry (m : RateMap) (i j : Int) : Option Ptr := (m.get? i).bind fun r => r.get? j

/-- The container reports the rate `p` from `i` to `j` (through `getOutgoingRates`). -/
def Holds (c : RateContainer) (i j : Int) (p : Ptr) : Prop := entry (c.getOutgoingRates i).1 i j = some p

/-- Some call of the history passed the rate `p` from `i` to `j` to the container. -/
def Given (ops : List Op) (i j : Int) (p : Ptr) : Prop :=
  .addRate i j p ∈ ops ∨ ∃ m, .addRates m ∈ ops ∧ entry m i j = some p

/-- Every observable answer. -/
def SameAnswers (c c' : RateContainer) : Prop :=
  (∀ i j, (c.getRate i j).1 = (c'.getRate i j).1) ∧
  (∀ i, (c.incomingRateCount i).1 = (c'.incomingRateCount i).1) ∧
  (∀ i, (c.outgoingRateCount i).1 = (c'.outgoingRateCount i).1) ∧
  (∀ i, (c.getIncomingRates i).1 = (c'.getIncomingRates i).1) ∧
  (∀ i, (c.getOutgoingRates i).1 = (c'.getOutgoingRates i).1) ∧
  c.getSourceSiteIds.1 = c'.getSourceSiteIds.1 ∧
  c.getSinkSiteIds.1 = c'.getSinkSiteIds.1

/-- The call names `i` as a source site: it stores a rate from `i`, or looks one up in a way that inserts. -/
def Touches (i : Int) : Op → Prop
  | .addRate s _ _ => s = i
  | .addRates m => i ∈ m.keys
  | .getRate s _ => s = i
  | .outgoingRateCount s => s = i
  | _ => False

end Mythical.RateSpec
