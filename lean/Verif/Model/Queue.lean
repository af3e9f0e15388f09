import Verif.Model.Basic
import Mathlib.Order.Defs.LinearOrder
import Mathlib.Data.List.Basic

/-!
# Model of `Queue` (include/mythical/queue.hpp, src/libmythical/queue.cpp)

Times are elements of an arbitrary linear order (no NaN: a NaN time would make the comparator of
`std::sort` undefined behaviour).
-/

namespace Mythical

/-- queue.hpp 52-54: `walker_queue_` (front of the deque = head of the list) and `sorted_`. -/
structure Queue (K : Type _) where
  entries : List (Int × K)
  sorted : Bool

/-- What the standard guarantees about one call of `std::sort` with the comparator `less_than`
(queue.cpp 19-25, 53): some permutation in non-decreasing order of time. `std::sort` is not stable,
so nothing is said about ties. -/
structure SortCall (K : Type _) [LinearOrder K] where
  run : List (Int × K) → List (Int × K)
  perm : ∀ l, (run l).Perm l
  ordered : ∀ l, (run l).Pairwise fun a b => a.2 ≤ b.2

namespace Queue
variable {K : Type _}

/-- queue.hpp 15: `Queue() : sorted_(true)`. -/
def init : Queue K := ⟨[], true⟩

/-- queue.cpp 30: `size()`. -/
def size (q : Queue K) : Nat := q.entries.length

/-- queue.cpp 49: `isSorted()`. -/
def isSorted (q : Queue K) : Bool := q.sorted

/-- queue.cpp 32-35: `add`: `push_back` and `sorted_ = false`. -/
def add (q : Queue K) (w : Int × K) : Queue K := ⟨q.entries ++ [w], false⟩

/-- queue.cpp 37-41 with the comparator of 10-17: `find_if` the first entry with a strictly larger
time and `insert` before it (before `end()` when there is none). -/
def insertBefore [LinearOrder K] (w : Int × K) : List (Int × K) → List (Int × K)
  | [] => [w]
  | e :: es => if w.2 < e.2 then w :: e :: es else e :: insertBefore w es

/-- queue.cpp 37-41: `sortedAdd`; `sorted_` is not touched. -/
def sortedAdd [LinearOrder K] (q : Queue K) (w : Int × K) : Queue K :=
  ⟨insertBefore w q.entries, q.sorted⟩

/-- queue.cpp 43-47: `front()` then `pop_front()`; both are undefined on an empty deque. -/
def popCurrent (q : Queue K) : Except Fault ((Int × K) × Queue K) :=
  match q.entries with
  | [] => .error (.ub .emptyPop)
  | e :: es => .ok (e, ⟨es, q.sorted⟩)

/-- queue.cpp 51-55: `sort()`: nothing if `sorted_`, else `std::sort` and `sorted_ = true`. -/
def sort [LinearOrder K] (q : Queue K) (s : SortCall K) : Queue K :=
  if q.sorted then q else ⟨s.run q.entries, true⟩

/-- queue.cpp 57-59: `at(int)`: the index is converted to `size_t` (a negative `int` becomes
at least 2^63, larger than any deque size) and `deque::at` throws `out_of_range` when it is not
below `size()`. -/
def at_ (q : Queue K) (i : Int) : Except Fault (Int × K) :=
  let idx : Nat := if i < 0 then (i + 18446744073709551616).toNat else i.toNat
  if idx ≥ 9223372036854775808 then .error .outOfRange
  else match q.entries[idx]? with
    | some e => .ok e
    | none => .error .outOfRange

/-- One call on the queue. `sort` carries the particular result `std::sort` chose. -/
inductive Op (K : Type _) [LinearOrder K] where
  | add (w : Int × K)
  | sortedAdd (w : Int × K)
  | sort (s : SortCall K)
  | pop

/-- Effect of one call: the new queue and the popped entry, if any. -/
def step [LinearOrder K] (q : Queue K) : Op K → Except Fault (Queue K × Option (Int × K))
  | .add w => .ok (q.add w, none)
  | .sortedAdd w => .ok (q.sortedAdd w, none)
  | .sort s => .ok (q.sort s, none)
  | .pop => match q.popCurrent with
    | .ok (e, q') => .ok (q', some e)
    | .error f => .error f

/-- Effect of a sequence of calls: the final queue and the popped entries in order. -/
def run [LinearOrder K] (q : Queue K) : List (Op K) → Except Fault (Queue K × List (Int × K))
  | [] => .ok (q, [])
  | o :: os => match q.step o with
    | .error f => .error f
    | .ok (q', out) => match q'.run os with
      | .error f => .error f
      | .ok (q'', outs) => .ok (q'', out.toList ++ outs)

end Queue
end Mythical
