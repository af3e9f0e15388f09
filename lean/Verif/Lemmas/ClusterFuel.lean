import Verif.Lemmas.ClusterTerm

/-! # Only the tolerance loop can reach the round limit -/

set_option linter.unusedSectionVars false

namespace Mythical.Cluster
open Mythical
variable {K : Type} [Field K] [LinearOrder K] [IsStrictOrderedRing K] [FloorRing K]
variable {env : Env K} {mem : Addr → K} {c : Cluster K}

/-- The call has not stopped at the round limit. -/
def NF {α : Type} (r : Except Fault α) : Prop := r ≠ .error .outOfFuel

theorem NF.ok {α : Type} (a : α) : NF (.ok a : Except Fault α) := nofun

theorem NF.bind {α β : Type} {x : Except Fault α} {f : α → Except Fault β} (hx : NF x) (hf : ∀ a, NF (f a)) :
    NF (x >>= f) := by
  intro h
  rw [bind_eq_error] at h
  rcases h with h | ⟨a, -, h⟩
  · exact hx h
  · exact hf a h

theorem NF.foldlM {α β : Type} {f : β → α → Except Fault β} (hf : ∀ b a, NF (f b a)) (l : List α) (b : β) :
    NF (l.foldlM f b) := by
  induction l generalizing b with
  | nil => exact NF.ok b
  | cons a l ih =>
    rw [List.foldlM_cons]
    exact (hf b a).bind fun b' => ih b'

theorem NF.probabilityTo (s : Site K) (n : Int) : NF (s.probabilityTo n) := by
  unfold Site.probabilityTo NF
  split
  · split <;> nofun
  · nofun

theorem NF.chk (n : Int) : NF (Mythical.chk n) := by
  unfold Mythical.chk NF
  split <;> nofun

theorem NF.hopNeighStep (c : Cluster K) (id : Int) (s : Site K) (acc : IMap K) (n : Int) : NF (c.hopNeighStep id s acc n) := by
  unfold Cluster.hopNeighStep
  split
  · exact NF.ok _
  · exact (NF.probabilityTo s n).bind fun _ => NF.ok _

theorem NF.calcHopToInternal (env : Env K) (c : Cluster K) : NF (c.calcHopToInternal env) := by
  unfold Cluster.calcHopToInternal NF
  simp only
  split <;> nofun

theorem NF.calcHopToNeighbors (env : Env K) (c : Cluster K) : NF (c.calcHopToNeighbors env) := by
  unfold Cluster.calcHopToNeighbors
  refine NF.bind ?_ fun t => ?_
  · exact NF.foldlM (fun b (a : Int × Site K) => NF.foldlM (fun acc n => NF.hopNeighStep c a.1 a.2 acc n) _ _) _ _
  · unfold NF
    simp only
    split <;> nofun

theorem NF.calcInternalDwell (mem : Addr → K) (c : Cluster K) : NF (c.calcInternalDwell mem) := by
  unfold Cluster.calcInternalDwell NF
  simp only
  split <;> nofun

theorem NF.calcHopOff (mem : Addr → K) (c : Cluster K) : NF (c.calcHopOff mem) := by
  unfold Cluster.calcHopOff NF
  simp only
  split
  · nofun
  · split
    · split <;> nofun
    · split
      · nofun
      · split <;> nofun

theorem NF.calcHopBetween (mem : Addr → K) (c : Cluster K) : NF (c.calcHopBetween mem) := by
  unfold Cluster.calcHopBetween NF
  simp only
  split
  · nofun
  · split <;> nofun

theorem NF.calcEscape (mem : Addr → K) (c : Cluster K) : NF (c.calcEscape mem) := by
  unfold Cluster.calcEscape NF
  simp only
  split
  · nofun
  · split <;> nofun

theorem NF.setVisitFrequency (c : Cluster K) (n id : Int) : NF (c.setVisitFrequency n id) := by
  unfold Cluster.setVisitFrequency NF
  split <;> nofun

theorem NF.restoreVisits (freqs : IMap Int) (l : List Int) (c : Cluster K) : NF (restoreVisits freqs c l) := by
  induction l generalizing c with
  | nil => exact NF.ok _
  | cons i l ih =>
    unfold Cluster.restoreVisits
    simp only
    split
    · exact (NF.setVisitFrequency _ _ _).bind fun a => ih a
    · exact (NF.ok _).bind fun a => ih a

theorem NF.rebuild {freqs : IMap Int} (h : ∃ d, c.solveProb env = .ok d) : NF (c.rebuild env mem freqs) := by
  unfold Cluster.rebuild
  refine NF.bind ?_ fun a => ?_
  · unfold solveMasterEquation
    obtain ⟨d, hd⟩ := h
    rw [hd, ok_bind]
    exact (NF.calcHopToInternal env d).bind fun a => (NF.calcHopToNeighbors env a).bind fun b => NF.calcInternalDwell mem b
  · simp only
    exact (NF.calcHopOff mem _).bind fun a => (NF.calcHopBetween mem a).bind fun b => (NF.calcEscape mem b).bind fun d =>
      (NF.restoreVisits _ _ _).bind fun e => NF.calcInternalDwell mem e

theorem NF.visitShare (c : Cluster K) (t d : K) (id : Int) : NF (c.visitShare t d id) := by
  unfold Cluster.visitShare NF
  split
  · split <;> nofun
  · nofun

theorem NF.flushLoop (l : List Int) (c : Cluster K) (t d : K) : NF (c.flushLoop t d l).1 := by
  induction l generalizing c with
  | nil => exact NF.ok _
  | cons i l ih =>
    unfold Cluster.flushLoop
    split
    · next e h => have := NF.visitShare c t d i; rw [h] at this; intro h; apply this; simp only [Except.error.injEq] at h; rw [h]
    · exact ih _

theorem NF.flush (c : Cluster K) (t : K) : NF (c.flush t).1 := by
  unfold Cluster.flush
  split
  · exact NF.ok _
  · split
    · next e h => have := NF.chk (c.visits - c.prevVisits); rw [h] at this; intro h; apply this; simp only [Except.error.injEq] at h; rw [h]
    · split
      · exact NF.ok _
      · exact NF.flushLoop _ c t _

theorem NF.getVisitFrequency (c : Cluster K) (id : Int) : NF (c.getVisitFrequency id).1 := by
  unfold Cluster.getVisitFrequency
  split
  · split
    · nofun
    · next t _ =>
      have := NF.flush c t
      split
      · next e c' h => rw [h] at this; intro h; apply this; simp only [Except.error.injEq] at h ⊢; exact h
      · simp only
        split <;> nofun
  · nofun

theorem NF.visitFreqsLoop (l : List Int) (c : Cluster K) (acc : IMap Int) : NF (c.visitFreqsLoop acc l).1 := by
  induction l generalizing c acc with
  | nil => exact NF.ok _
  | cons i l ih =>
    unfold Cluster.visitFreqsLoop
    have := NF.getVisitFrequency c i
    split
    · next e c' h => rw [h] at this; intro h; apply this; simp only [Except.error.injEq] at h ⊢; exact h
    · exact ih _ _

theorem NF.update (h : ∀ c1, VisitsOnly c c1 → ∃ d, c1.solveProb env = .ok d) : NF (c.update env mem).1 := by
  unfold Cluster.update
  have h1 := NF.visitFreqsLoop c.siteVisits.keys c []
  have hv := visitFreqsLoop_visitsOnly (c := c) [] c.siteVisits.keys
  split
  · next e c' he => rw [he] at h1; intro h; apply h1; simp only [Except.error.injEq] at h ⊢; exact h
  · next freqs c' he =>
    rw [he] at hv
    have := NF.rebuild (mem := mem) (freqs := freqs) (h c' hv)
    split
    · next e h2 => rw [h2] at this; intro h; apply this; simp only [Except.error.injEq] at h ⊢; exact h
    · exact NF.ok _

end Mythical.Cluster
