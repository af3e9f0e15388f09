import Verif.Model.Bench

/-!
# Model of the second simulation in src/tests/performance/test_crude_vs_coarsegrain.cpp (376-433)

The same text is in performance/test_crude_vs_coarsegrain_correlated.cpp 638-703. The first simulation, the crude one, is in
`Model/Crude.lean`; it changes the variables `walker_positions` (360), from which the second one takes the sites of its walkers (396).
The loop of the second one is that of performance/test_coarsegrain_cluster_vs_nocluster.cpp; see `Model/Bench.lean` for it and for
what is left out.
-/

namespace Mythical.Versus
open Bench
open _root_.Mythical.ToF (memOf layout)
variable {K : Type} [Field K] [LinearOrder K] [IsStrictOrderedRing K] [FloorRing K]

/-- 391-431: the coarse-grained simulation of `n` walkers at the positions `pos`; the time resolution is a hundredth of the cutoff (405).
`R` are the rates in the order in which the map is gone through. -/
def coarse (env : Env K) (d : Int) (R : IMap (IMap K)) (n : Nat) (pos : IMap Cuboid.Pos) (seed threshold : Int) (cutoff : K)
    (luck : Luck K) (r : Nat) : Except Fault (Sim K) := do
  let sites ← sitesOf d pos n
  whole env (memOf R) (layout R) sites seed threshold cutoff 100 luck ⟨World.new 0, []⟩ r

/-- 335: whether the loop of the crude simulation is over. -/
def over (cutoff : K) (s : Crude.State K) : Bool :=
  match s.times with
  | [] => false
  | kt :: _ => !decide (kt.2 < cutoff)

/-- 186-433: both simulations. The rates are read by the first one, with `operator[]` but only where there are entries (see
`Model/Crude.lean`), and go on to the second one. -/
def versus (env : Env K) (d : Int) (R : IMap (IMap K)) (visit : IMap (IMap K) → List (Int × List (Int × K))) (n : Nat)
    (picks : List Cuboid.Pos) (e : Nat → K) (order : IMap K → List (Int × K)) (ues : List (K × K)) (seed threshold : Int) (cutoff : K)
    (luck : Luck K) (r : Nat) : Except Fault (Crude.State K × Sim K) := do
  let s ← Crude.simulate d R n picks e order cutoff ues
  if over cutoff s then do
    let s' ← coarse env d (visit R) n s.positions seed threshold cutoff luck r
    .ok (s, s')
  else .error .outOfFuel

end Mythical.Versus
