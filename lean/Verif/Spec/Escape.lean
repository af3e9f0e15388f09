import Verif.Model.Escape
import Verif.Spec.System
import Verif.Spec.Programs

/-! # Specification vocabulary for the program that lets electrons escape from five sites -/

namespace Mythical.EscapeSpec
open Mythical World SystemSpec
variable {K : Type}

/-- Where a walker is and the dwell time it has. -/
def seen (w : World K) (h : Int) : List (Int × K) := ((w.walkers.get? h).map fun x => (x.site, x.dwell)).toList

/-- The stays of the walkers in the order in which they are brought in: what a walker is given by `initializeWalkers` and by each of
the hops after it. -/
def noteStay (L : List (List (Int × K))) (ev : Event K) : List (List (Int × K)) :=
  match ev.op with
  | .initializeWalkers l => L ++ [l.flatMap fun a => seen ev.post a.handle]
  | .hop _ h _ => L.dropLast ++ [L.getLastD [] ++ seen ev.post h]
  | _ => L

/-- The stays in a history. -/
def stints (evs : List (Event K)) : List (List (Int × K)) := evs.foldl noteStay []

variable [Field K] [LinearOrder K]

/-- The sum of the times. -/
def time (l : List (Int × K)) : K := (l.map Prod.snd).sum

/-- The stays of electron `i`: it is put on one of the sites 1 to 5, in turn, hops from one of these sites to another (or stays where it
is), and the last hop takes it to one of the sites 6 to 14. -/
def OneEscape (i : Nat) (g : List (Int × K)) : Prop :=
  ∃ a mid b, g = a :: (mid ++ [b]) ∧ a.1 = (i : Int) % 5 + 1 ∧ (∀ x ∈ mid, 1 ≤ x.1 ∧ x.1 ≤ 5) ∧ 6 ≤ b.1 ∧ b.1 ≤ 14

/-- The stays that begin with a hop. -/
def landings (L : List (List (Int × K))) : List (Int × K) := L.flatMap List.tail

/-- The books are kept as their names and comments say: the number of hops to each site, the time after these hops on it, and for each
electron the time after its hops. -/
structure Kept (b : Escape.Books K) (L : List (List (Int × K))) : Prop where
  hops : b.hops = (List.range 14).map fun j : Nat => (((landings L).filter fun x => x.1 = (j : Int) + 1).length : Int)
  times : b.times = (List.range 14).map fun j : Nat => time ((landings L).filter fun x => x.1 = (j : Int) + 1)
  escapes : b.escapes = L.map fun g => time g.tail

/-- Possible random numbers. -/
def Lucky (luck : Escape.Luck K) : Prop :=
  (∀ k, SiteSpec.Draw (luck.first k).2 ∧ 0 < (luck.first k).1) ∧ ∀ evs h, SiteSpec.Draw (luck.draw evs h).u ∧ 0 < (luck.draw evs h).e

/-- `i` has a rate to `j`. -/
def Leads (R : IMap (IMap K)) (i j : Int) : Prop := ∃ row, (i, row) ∈ R ∧ ∃ k, (j, k) ∈ row

/-- The connections in the picture in the comments (test_kmc_coarsegrainsystem.cpp 38-44). -/
def drawn : List (Int × Int) :=
  [(6, 7), (7, 8), (6, 1), (7, 2), (8, 3), (14, 1), (1, 2), (2, 3), (3, 9), (1, 5), (2, 4), (3, 10), (13, 5), (5, 4), (4, 10),
   (5, 12), (4, 11), (12, 11)]

/-- The picture connects `i` and `j`. -/
def Drawn (i j : Int) : Prop := (i, j) ∈ drawn ∨ (j, i) ∈ drawn

instance (i j : Int) : Decidable (Drawn i j) := inferInstanceAs (Decidable (_ ∨ _))

end Mythical.EscapeSpec
