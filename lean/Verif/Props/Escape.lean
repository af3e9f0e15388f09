import Verif.Lemmas.EscapeNet
import Verif.Lemmas.SystemWitness
import Mathlib.Data.Rat.Floor

/-! # The program that lets electrons escape from five sites (C113-C115) -/

set_option linter.unusedSectionVars false
set_option linter.unusedVariables false

namespace Mythical
open World SystemSpec ProgramSpec EscapeSpec Escape
open _root_.Mythical.ToF (Prog layout memOf)
variable {K : Type} [Field K] [LinearOrder K] [IsStrictOrderedRing K] [FloorRing K]
variable {env : Env K} {mem : Addr → K} {m : IMap (IMap Addr)} {luck luck' : Luck K}

/-- Draws with which an electron leaves the five sites in its second hop. -/
def Escape.quickLuck : Luck ℚ where
  first _ := (1, 1 / 2)
  draw _ _ := witChoice (1999 / 2000) [1 / 100]

theorem Escape.quick_lucky : Lucky quickLuck := by
  refine ⟨fun k => ⟨?_, ?_⟩, fun evs h => ⟨?_, ?_⟩⟩
  · show SiteSpec.Draw (1 / 2 : ℚ)
    unfold SiteSpec.Draw; norm_num
  · show (0 : ℚ) < 1
    norm_num
  · show SiteSpec.Draw (1999 / 2000 : ℚ)
    unfold SiteSpec.Draw; norm_num
  · show (0 : ℚ) < 1
    norm_num

/-- A block with these draws and `n` electrons. -/
def Escape.quickRun (ratio : Option ℚ) (threshold : Int) (n r : Nat) : Except Fault (Prog ℚ × Books ℚ) :=
  block Cluster.witEnv (memOf (net : IMap (IMap ℚ))) (layout (net : IMap (IMap ℚ))) ratio threshold quickLuck n r ⟨World.new 0, []⟩

/-- The hops and the number of clusters are as given. -/
def Escape.Ran (x : Except Fault (Prog ℚ × Books ℚ)) (hops : List Int) (clusters : Nat) : Bool :=
  match x with
  | .ok (p, b) => decide (b.hops = hops ∧ p.world.getClusters.length = clusters)
  | .error _ => false

theorem Escape.ran_ok {x : Except Fault (Prog ℚ × Books ℚ)} {hops : List Int} {clusters : Nat} (h : Escape.Ran x hops clusters = true) :
    ∃ p b, x = .ok (p, b) ∧ b.hops = hops ∧ p.world.getClusters.length = clusters := by
  unfold Escape.Ran at h
  split at h
  · exact ⟨_, _, rfl, of_decide_eq_true h⟩
  · cases h

/-- Without coarse graining the electrons go from 1 by 5 to 13 and from 2 by 4 to 11. -/
theorem Escape.quick_second : ∃ p b, quickRun none infIterations 2 3 = .ok (p, b) ∧ b.hops = [0, 0, 0, 1, 1, 0, 0, 0, 0, 0, 1, 0, 1, 0] ∧
    p.world.getClusters.length = 0 := ran_ok (by decide +kernel)

/-- C113: in a block of the program that returns, with or without coarse graining, there are as many lists of stays as electrons; each
electron starts on one of the sites 1 to 5, in turn, and stops as soon as it is on one of the sites 6 to 14; and the books hold the number
of hops to each site, the time after these hops on it, and for each electron the time after its hops. -/
theorem C113_books {w : World K} {ratio : Option K} {threshold : Int} {n r : Nat} {p : Prog K} {b : Books K}
    (h : block env mem m ratio threshold luck n r ⟨w, []⟩ = .ok (p, b)) :
    (stints p.calls).length = n ∧ (∀ i g, (stints p.calls)[i]? = some g → OneEscape i g) ∧ Kept b (stints p.calls) := by
  unfold block at h
  obtain ⟨p1, e1, h⟩ := bind_eq_ok.1 h
  exact electrons_kept (system_stints e1) h

example : ∃ p b, quickRun none infIterations 2 3 = .ok (p, b) ∧ (stints p.calls).length = 2 ∧ Kept b (stints p.calls) := by
  obtain ⟨p, b, h, -⟩ := quick_second
  obtain ⟨h1, -, h2⟩ := C113_books h
  exact ⟨p, b, h, h1, h2⟩

/-- C113: the block without coarse graining does not fail, whatever the order of the rates and the draws are, unless an electron is not
out after `r` hops: no index is out of range and no counter overflows. At the end there are no clusters, and no electron is left in the
system. -/
theorem C113_sites {R R' : IMap (IMap K)} {g n0 n r : Nat} (hR : (table : Except Fault (IMap (IMap K) × Nat)) = .ok (R, g)) (hv : Rearranged R' R)
    (hl : Lucky luck) (hb : (n : Int) * (r + 2) ≤ INT_MAX) :
    block env (memOf R') (layout R') none infIterations luck n r ⟨World.new n0, []⟩ = .error .outOfFuel ∨
      ∃ p b, block env (memOf R') (layout R') none infIterations luck n r ⟨World.new n0, []⟩ = .ok (p, b) ∧
        p.world.getClusters.length = 0 ∧ active p.calls = [] := by
  rw [table_net] at hR
  have hR := ok_inj.1 hR
  simp only [Prod.mk.injEq] at hR
  obtain ⟨rfl, rfl⟩ := hR
  have hf := net_fits hv
  obtain ⟨p, e, hr⟩ := system_ready (env := env) (n0 := n0) hf
  unfold block
  rw [e, ok_bind]
  rcases electrons_ready hf hl hr hb with e | ⟨p', b', e, hr'⟩
  · exact .inl e
  · refine .inr ⟨p', b', e, ?_, hr'.act⟩
    unfold World.getClusters
    rw [hr'.still.clusters]
    rfl

theorem Escape.net_self {R : IMap (IMap K)} : Rearranged R R :=
  ⟨R, List.Perm.refl _, List.forall₂_same.2 fun _ _ => ⟨rfl, List.Perm.refl _⟩⟩

example : ∃ p b, quickRun none infIterations 2 3 = .ok (p, b) ∧ p.world.getClusters.length = 0 ∧ active p.calls = [] := by
  rcases C113_sites (env := Cluster.witEnv) (n0 := 0) (n := 2) (r := 3) table_net net_self quick_lucky (by decide) with h | ⟨p, b, h, h'⟩
  · obtain ⟨p, b, h', -⟩ := quick_second
    unfold quickRun at h'
    rw [h] at h'
    cases h'
  · exact ⟨p, b, h, h'⟩

/-- C113: if both blocks return, all electrons have escaped in either block, there was one cluster at the end of the first block and
there is none at the end of the second. -/
theorem C113_both {visit visit' : IMap (IMap K) → IMap (IMap K)} (hv' : ∀ R, Rearranged (visit' R) R) (hl' : Lucky luck') {threshold : Int}
    {n r r' : Nat} (hr : (n : Int) * (r' + 2) ≤ INT_MAX) {pb pb' : Prog K × Books K}
    (h : both env visit visit' threshold n luck luck' r r' = .ok (pb, pb')) :
    (∀ q ∈ [pb, pb'], (stints q.1.calls).length = n ∧ (∀ i g, (stints q.1.calls)[i]? = some g → OneEscape i g) ∧ Kept q.2 (stints q.1.calls)) ∧
      pb.1.world.getClusters.length = 1 ∧ pb'.1.world.getClusters.length = 0 := by
  unfold both at h
  rw [table_net, ok_bind] at h
  dsimp only at h
  obtain ⟨qb, e1, h⟩ := bind_eq_ok.1 h
  split at h
  · cases h
  · next hone =>
    obtain ⟨qb', e2, h⟩ := bind_eq_ok.1 h
    have h := ok_inj.1 h
    simp only [Prod.mk.injEq] at h
    obtain ⟨rfl, rfl⟩ := h
    obtain ⟨n0, hn0⟩ := Int.eq_ofNat_of_zero_le (block_next e1)
    have hw : ({ World.new 0 with nextId := qb.1.world.nextId } : World K) = World.new n0 := by rw [hn0]; rfl
    refine ⟨fun q hq => ?_, not_not.1 hone, ?_⟩
    · rcases List.mem_cons.1 hq with rfl | hq
      · exact C113_books e1
      · rw [List.mem_singleton.1 hq]; exact C113_books e2
    · rw [hw] at e2
      rcases C113_sites (env := env) (n0 := n0) (n := n) (r := r') table_net (hv' _) hl' hr with e | ⟨p, b, e, h1, -⟩
      · rw [e] at e2; cases e2
      · rw [e] at e2
        rw [← ok_inj.1 e2]
        exact h1

example : ∃ pb pb', both Cluster.witEnv id id 0 2 quickLuck quickLuck 3 3 = .ok (pb, pb') ∧ pb.1.world.getClusters.length = 1 ∧
    pb'.1.world.getClusters.length = 0 := by
  have h : (both Cluster.witEnv id id 0 2 quickLuck quickLuck 3 3).isOk = true := by decide +kernel
  obtain ⟨⟨pb, pb'⟩, h⟩ : ∃ x, both Cluster.witEnv id id 0 2 quickLuck quickLuck 3 3 = .ok x := by
    cases e : both Cluster.witEnv id id 0 2 quickLuck quickLuck 3 3 with
    | error f => rw [e] at h; cases h
    | ok x => exact ⟨x, rfl⟩
  exact ⟨pb, pb', h, (C113_both (fun _ => net_self) quick_lucky (by decide) h).2⟩

/-- C113: so it is for the whole program with its 5000 electrons. -/
theorem C113_main {visit visit' : IMap (IMap K) → IMap (IMap K)} (hv' : ∀ R, Rearranged (visit' R) R) (hl' : Lucky luck')
    {r r' : Nat} (hr : (5000 : Int) * (r' + 2) ≤ INT_MAX) {pb pb' : Prog K × Books K}
    (h : main env visit visit' luck luck' r r' = .ok (pb, pb')) :
    pb.2.escapes.length = 5000 ∧ pb'.2.escapes.length = 5000 ∧
      pb.1.world.getClusters.length = 1 ∧ pb'.1.world.getClusters.length = 0 := by
  obtain ⟨h1, h2⟩ := C113_both hv' hl' (by exact_mod_cast hr) h
  obtain ⟨a1, -, a2⟩ := h1 pb (by simp)
  obtain ⟨b1, -, b2⟩ := h1 pb' (by simp)
  exact ⟨by rw [a2.escapes, List.length_map, a1], by rw [b2.escapes, List.length_map, b1], h2⟩

/-- C114, in part: from each of the sites 1 to 5 there are rates to exactly the sites with which the picture in the comments connects it,
and from each of the other sites there is a rate to one of the sites 1 to 5. That these are the sites it is connected with is false, see
`C114_counterexample`. -/
theorem C114_inner_partial : ∃ R g, (table : Except Fault (IMap (IMap K) × Nat)) = .ok (R, g) ∧
    (∀ i j, 1 ≤ i → i ≤ 5 → (Leads R i j ↔ Drawn i j)) ∧ ∀ i, 6 ≤ i → i ≤ 14 → ∃ j, 1 ≤ j ∧ j ≤ 5 ∧ ∀ k, Leads R i k ↔ k = j := by
  refine ⟨net, 29, table_net, fun i j h1 h2 => ?_, fun i h1 h2 => ?_⟩
  · obtain h | h | h | h | h : i = 1 ∨ i = 2 ∨ i = 3 ∨ i = 4 ∨ i = 5 := by omega
    all_goals
      subst h
      unfold Leads net Drawn drawn
      simp [exists_or]
      omega
  · obtain h | h | h | h | h | h | h | h | h : i = 6 ∨ i = 7 ∨ i = 8 ∨ i = 9 ∨ i = 10 ∨ i = 11 ∨ i = 12 ∨ i = 13 ∨ i = 14 := by omega
    · exact ⟨1, by omega, by omega, by intro k; unfold Leads net; simp [h]⟩
    · exact ⟨2, by omega, by omega, by intro k; unfold Leads net; simp [h]⟩
    · exact ⟨3, by omega, by omega, by intro k; unfold Leads net; simp [h]⟩
    · exact ⟨3, by omega, by omega, by intro k; unfold Leads net; simp [h]⟩
    · exact ⟨3, by omega, by omega, by intro k; unfold Leads net; simp [h]⟩
    · exact ⟨4, by omega, by omega, by intro k; unfold Leads net; simp [h]⟩
    · exact ⟨4, by omega, by omega, by intro k; unfold Leads net; simp [h]⟩
    · exact ⟨5, by omega, by omega, by intro k; unfold Leads net; simp [h]⟩
    · exact ⟨5, by omega, by omega, by intro k; unfold Leads net; simp [h]⟩

/-- C114 is false: site 10, next to the sites 3 and 4, has one rate only, so that the rates after it are those of the wrong sites. From
site 4 there is a rate to site 10 but not back; the sites 12 and 14 lead to 4 and 5, with which they are not connected, and not back to 5
and 1; and the last of the 30 rates is not used. -/
theorem C114_counterexample : ∃ R, (table : Except Fault (IMap (IMap K) × Nat)) = .ok (R, 29) ∧ (rates : List (Int × K)).length = 30 ∧
    (Leads R 4 10 ∧ ¬ Leads R 10 4) ∧ (Leads R 5 12 ∧ ¬ Leads R 12 5 ∧ Leads R 12 4 ∧ ¬ Drawn 12 4) ∧
    (Leads R 1 14 ∧ ¬ Leads R 14 1 ∧ Leads R 14 5 ∧ ¬ Drawn 14 5) := by
  refine ⟨net, table_net, rfl, ⟨?_, ?_⟩, ⟨?_, ?_, ?_, by decide⟩, ?_, ?_, ?_, by decide⟩ <;> (unfold Leads net; simp)

/-- C115, in part: the time stored for an electron is the time it spent on the sites 1 to 5 less its stay on the first of them, plus its
stay on the site it escaped to. That it is the time it spent on the sites 1 to 5 is false, see `C115_counterexample`. -/
theorem C115_escape_partial {w : World K} {ratio : Option K} {threshold : Int} {n r : Nat} {p : Prog K} {b : Books K}
    (h : block env mem m ratio threshold luck n r ⟨w, []⟩ = .ok (p, b)) {i : Nat} (hi : i < n) :
    ∃ first mid last, (stints p.calls)[i]? = some (first :: (mid ++ [last])) ∧ first.1 ≤ 5 ∧ (∀ x ∈ mid, x.1 ≤ 5) ∧ 6 ≤ last.1 ∧
      b.escapes[i]? = some (time (first :: mid) - first.2 + last.2) := by
  obtain ⟨h1, h2, h3⟩ := C113_books h
  have hg : (stints p.calls)[i]? = some (stints p.calls)[i] := List.getElem?_eq_getElem (by omega)
  obtain ⟨a, mid, z, e, ha, hm, hz, -⟩ := h2 i _ hg
  rw [e] at hg
  refine ⟨a, mid, z, hg, by omega, fun x hx => (hm x hx).2, hz, ?_⟩
  rw [h3.escapes, List.getElem?_map, hg]
  simp only [Option.map_some, List.tail_cons, Option.some.injEq]
  rw [time_append]
  simp [time]

example : ∃ p b, quickRun none infIterations 2 3 = .ok (p, b) ∧ ∃ first mid last, (stints p.calls)[1]? = some (first :: (mid ++ [last])) ∧
    b.escapes[1]? = some (time (first :: mid) - first.2 + last.2) := by
  obtain ⟨p, b, h, -⟩ := quick_second
  obtain ⟨f, mid, l, h1, -, -, -, h2⟩ := C115_escape_partial h (i := 1) (by decide)
  exact ⟨p, b, h, f, mid, l, h1, h2⟩

/-- The stays and the escape times are as given. -/
def Escape.Told (x : Except Fault (Prog ℚ × Books ℚ)) (L : List (List (Int × ℚ))) (escapes : List ℚ) : Bool :=
  match x with
  | .ok (p, b) => decide (stints p.calls = L ∧ b.escapes = escapes)
  | .error _ => false

/-- C115 is false: an electron that spent the time 160/161 on the sites 1 to 5, in two equal stays, before it went to site 13, gets the
escape time 400 + 80/161. -/
theorem C115_counterexample : ∃ p b, quickRun none infIterations 1 3 = .ok (p, b) ∧
    stints p.calls = [[(1, 80 / 161), (5, 80 / 161), (13, 400)]] ∧ b.escapes = [400 + 80 / 161] ∧ b.escapes ≠ [time [((1 : Int), (80 / 161 : ℚ)), (5, 80 / 161)]] := by
  have h : Escape.Told (quickRun none infIterations 1 3) [[(1, 80 / 161), (5, 80 / 161), (13, 400)]] [400 + 80 / 161] = true := by decide +kernel
  unfold Escape.Told at h
  split at h
  · obtain ⟨h1, h2⟩ := of_decide_eq_true h
    refine ⟨_, _, by assumption, h1, h2, ?_⟩
    rw [h2]
    unfold time
    norm_num
  · cases h

end Mythical
