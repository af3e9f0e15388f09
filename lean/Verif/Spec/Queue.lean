import Verif.Model.EventLoop

/-! # Specification vocabulary for the queue: what callers can observe -/

namespace Mythical.QueueSpec
variable {K : Type _} [LinearOrder K]

/-- The caller reads the entries with `at(0), at(1), ...` and finds them in non-decreasing order. -/
def ObservedSorted (q : Queue K) : Prop :=
  ∀ i j : Int, FitsInt i → FitsInt j → i ≤ j →
    ∀ a b, q.at_ i = .ok a → q.at_ j = .ok b → a.2 ≤ b.2

/-- The entries a sequence of calls put in, in call order. -/
def added : List (Queue.Op K) → List (Int × K)
  | [] => []
  | .add w :: os => w :: added os
  | .sortedAdd w :: os => w :: added os
  | _ :: os => added os

/-- The number of `pop_current` calls in a sequence. -/
def pops : List (Queue.Op K) → Nat
  | [] => 0
  | .pop :: os => pops os + 1
  | _ :: os => pops os

/-- `n` calls of `pop_current`. -/
def popN (n : Nat) : List (Queue.Op K) := List.replicate n .pop

end Mythical.QueueSpec
