/-!
# Shared vocabulary of the model: faults, integer limits, finite maps
-/

namespace Mythical

/-- Reasons for undefined behaviour that the modelled C++ can reach. -/
inductive UB where
  /-- `front()`/`pop_front()` on an empty deque. -/
  | emptyPop
  /-- Dereference of a null pointer (a missing `topology_features_` entry read with `operator[]`). -/
  | nullDeref
  /-- Dereference of a pointer to an erased object. -/
  | danglingDeref
  /-- Dereference of a past-the-end iterator. -/
  | endIterator
  /-- Signed integer overflow. -/
  | intOverflow
  /-- Integer division or remainder by zero. -/
  | intDivByZero
  /-- Conversion of an out of range floating-point number to `int`. -/
  | floatToInt
  /-- `std::uniform_int_distribution(a,b)` with `a > b`. -/
  | badDistribution
  /-- Read of a data member that was never initialised. -/
  | uninitRead
  deriving DecidableEq, Repr

/-- Every way in which a modelled call can fail to return a value. -/
inductive Fault where
  /-- `throw std::invalid_argument` -/
  | invalidArgument
  /-- `throw std::runtime_error` -/
  | runtimeError
  /-- `std::out_of_range` from a checked `.at()` -/
  | outOfRange
  /-- `std::length_error` from `vector::reserve` -/
  | lengthError
  /-- a failing `assert` (the library is modelled with asserts enabled) -/
  | assertFail
  /-- undefined behaviour -/
  | ub (why : UB)
  /-- floating-point division by zero (the C++ value is an infinity or NaN, outside the model's
  exact numbers) -/
  | nonFinite
  /-- a loop that has not terminated within the given fuel -/
  | outOfFuel
  deriving DecidableEq, Repr

/-- Faults a caller can catch; the program may go on afterwards. -/
def Fault.isException : Fault → Bool
  | .invalidArgument | .runtimeError | .outOfRange | .lengthError => true
  | _ => false

/-- `std::numeric_limits<int>::min()`; also `constants::unassignedId`
(include/mythical/constants.hpp 10). -/
def INT_MIN : Int := -2147483648

/-- `std::numeric_limits<int>::max()`; also `constants::inf_iterations`
(include/mythical/constants.hpp 11). -/
def INT_MAX : Int := 2147483647

/-- include/mythical/constants.hpp 10. -/
def unassignedId : Int := INT_MIN

/-- include/mythical/constants.hpp 11. -/
def infIterations : Int := INT_MAX

/-- `n` is representable as `int`. -/
def FitsInt (n : Int) : Prop := INT_MIN ≤ n ∧ n ≤ INT_MAX

instance (n : Int) : Decidable (FitsInt n) := by unfold FitsInt; infer_instance

/-- Result of a signed `int` operation whose mathematical value is `n`: overflow is undefined. -/
def chk (n : Int) : Except Fault Int :=
  if FitsInt n then .ok n else .error (.ub .intOverflow)

/-- `unordered_map<int,V>`: association list; the list order is the iteration order.
The invariant "keys are distinct" is the separate predicate `IMap.WF`. -/
abbrev IMap (V : Type _) := List (Int × V)

namespace IMap
variable {V W : Type _}

/-- `find`: first value stored under `k`. -/
def get? : IMap V → Int → Option V
  | [], _ => none
  | (k', v) :: m, k => if k' = k then some v else get? m k

/-- `count(k) != 0`. -/
def has (m : IMap V) (k : Int) : Bool := (m.get? k).isSome

/-- `m[k] = v`: overwrite in place, or insert. -/
def set : IMap V → Int → V → IMap V
  | [], k, v => [(k, v)]
  | (k', v') :: m, k, v => if k' = k then (k, v) :: m else (k', v') :: set m k v

/-- `erase(k)`. -/
def erase : IMap V → Int → IMap V
  | [], _ => []
  | (k', v') :: m, k => if k' = k then m else (k', v') :: erase m k

/-- The keys in iteration order. -/
def keys (m : IMap V) : List Int := m.map Prod.fst

/-- Apply `f` to every value, keeping keys and order. -/
def mapVal (f : Int → V → W) (m : IMap V) : IMap W := m.map fun kv => (kv.1, f kv.1 kv.2)

/-- Keys are distinct: the representation invariant of a map. -/
def WF (m : IMap V) : Prop := (m.map Prod.fst).Nodup

end IMap
end Mythical
