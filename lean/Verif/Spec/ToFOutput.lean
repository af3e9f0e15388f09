import Verif.Model.ToFOutput
import Verif.Spec.ToFEnds

/-! # What happened in the time-of-flight simulation, told from the history of calls -/

namespace Mythical.ToFSpec
open Mythical World SystemSpec ToF
variable {K : Type} [Field K] [LinearOrder K] [IsStrictOrderedRing K] [FloorRing K]

/-- The plane in which walker `h` is: x runs fastest in the index of a site. -/
def planeIn (c : Cuboid) (w : World K) (h : Int) : Int :=
  match w.walkers.get? h with
  | some y => y.site % c.length
  | none => 0

/-- A hop: its time, and the planes before and after it. -/
structure Leap (K : Type) where
  time : K
  before : Int
  after : Int

/-- The hops of the charge `k` in a history that begins at the time `t` of the charge: the charge hops when the dwell times it got
so far have passed. -/
def leaps (c : Cuboid) (k : Int) : K → List (Event K) → List (Leap K)
  | _, [] => []
  | t, ev :: evs =>
    (match ev.op with
      | .hop id h _ => if id = k then [⟨t, planeIn c ev.pre h, planeIn c ev.post h⟩] else []
      | _ => []) ++ leaps c k (t + (staysIn k ev).sum) evs

/-- The number of planes by which `n` charges came forward in the hops at times from `a` on and before `b`. -/
def covered (c : Cuboid) (n : Nat) (evs : List (Event K)) (a b : K) : Int :=
  ((List.range n).map fun k : Nat =>
    (((leaps c k 0 evs).filter fun l => a ≤ l.time ∧ l.time < b).map fun l => l.after - l.before).sum).sum

/-- The number of those of `n` charges which have not got to the last plane in a hop before the time `t`. -/
def stillThere (c : Cuboid) (n : Nat) (evs : List (Event K)) (t : K) : Nat :=
  (List.range n).countP fun k : Nat =>
    (leaps c k 0 evs).all fun l => decide (l.time < t → l.after ≠ c.length - 1)

/-- The current that `n` charges make between the times `a` and `a + dt`, for the `left` charges that are still there then. -/
def IsCurrent (c : Cuboid) (cfg : Config K) (evs : List (Event K)) (a : K) (left : Int) (j : Option K) : Prop :=
  (left ≠ 0 → cfg.volume ≠ 0 → j = some (cfg.q * cfg.nm * (covered c cfg.charges evs a (a + cfg.dt) : K) / (cfg.dt * cfg.volume))) ∧
    (left = 0 ∨ cfg.volume = 0 → j = none)

end Mythical.ToFSpec

namespace Mythical.ToFSpec
open Mythical ToF

/-- The constants of the simulation that `main` makes: the volume is that of all sites, each a cube with an edge of one unit of length. -/
noncomputable def asked (S : Setup) : Config ℝ where
  charges := S.charges
  cutoffTime := S.cutoffTime
  dt := S.dt
  seed := S.seed
  q := S.q
  nm := S.nm
  volume := (S.len : ℝ) * S.wid * S.hei * S.nm ^ 3

/-- The constants of `main` make sense: a lattice of at least two planes whose sites can be counted, positive spacing, reorganisation energy, temperature
and sampling interval, a coupling, and a cutoff that reaches the next site but is not absurd. -/
structure Sound (S : Setup) : Prop where
  len : 2 ≤ S.len
  wid : 0 < S.wid
  hei : 0 < S.hei
  fits : S.len * S.wid * S.hei ≤ 2147483647
  spacing : 0 < S.spacing
  lambda : 0 < S.params.lambda
  temp : 0 < S.params.temp
  coupling : S.params.A ≠ 0
  near : S.spacing ≤ S.params.cutoff
  far : ⌊S.params.cutoff / S.spacing⌋ ≤ 26754
  sensible : Sensible (asked S)

/-- The rows of the file tell what happened in the history `evs`: row `i` has the time `dt (i + 1)`, the current in the interval
that ends then, and the number of charges that are still there. -/
def Tells {K : Type} [Field K] [LinearOrder K] [IsStrictOrderedRing K] [FloorRing K] (c : Cuboid) (cfg : Config K)
    (evs : List (World.Event K)) (f : File K) : Prop :=
  f.title = "Transient Current" ∧ f.size = f.rows.length ∧ ∀ (i : Nat) r, f.rows[i]? = some r →
    r.time = cfg.dt * (i + 1) ∧ r.left = stillThere c cfg.charges evs r.time ∧ IsCurrent c cfg evs (cfg.dt * i) r.left r.current

end Mythical.ToFSpec
