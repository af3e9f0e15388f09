import Verif.Lemmas.Escape
import Verif.Spec.MergingBooks

/-! # The books of the unit test in which two clusters are merged (for C119) -/

set_option linter.unusedSectionVars false
set_option linter.unusedVariables false

namespace Mythical.Merging
open World SystemSpec EscapeSpec MergingSpec
variable {K : Type} [Field K] [LinearOrder K] [IsStrictOrderedRing K] [FloorRing K]
variable {env : Env K} {mem : Addr → K} {m : IMap (IMap Addr)} {p p' : ToF.Prog K} {b b' : Books K} {luck : Luck K}

theorem stays_snoc (evs : List (Event K)) (ev : Event K) : stays (evs ++ [ev]) = stays evs ++ stays [ev] := by
  unfold stays
  rw [List.flatMap_append]

theorem stays_call {op : Op K} (h : p.call env mem op = .ok p') (h2 : ∀ w k a, op ≠ .hop w k a) : stays p'.calls = stays p.calls := by
  obtain ⟨r, -, h3⟩ := ToF.call_ok h
  rw [h3, stays_snoc]
  unfold stays
  cases op <;> first | exact absurd rfl (h2 _ _ _) | simp

theorem stays_hop {wid k : Int} {a : Choices K} (h : p.call env mem (.hop wid k a) = .ok p') :
    stays p'.calls = stays p.calls ++ seen p'.world k := by
  obtain ⟨r, -, h3⟩ := ToF.call_ok h
  rw [h3, stays_snoc]
  simp [stays]

theorem onSite_snoc (l : List (Int × K)) (i j : Int) (d : K) : onSite (l ++ [(i, d)]) j = if i = j then onSite l j ++ [(i, d)] else onSite l j := by
  unfold onSite
  rw [List.filter_append]
  split
  · next h => simp [h]
  · next h => simp [h]

/-- The books and the stays so far. -/
structure Kept (b : Books K) (l : List (Int × K)) : Prop where
  counted : Counted b l
  last : TimesLast b l
  sites : ∀ x ∈ l, 1 ≤ x.1 ∧ x.1 ≤ 16

theorem kept_new : Kept (Books.new : Books K) [] := by
  refine ⟨⟨?_, rfl, ?_⟩, ?_, fun x hx => (by cases hx)⟩
  · rfl
  · simp [Books.new, time]
  · rfl

theorem kept_hop (h : Kept b (stays p.calls)) (e : hopOnce env mem luck p b = .ok (p', b')) :
    Kept b' (stays p'.calls) ∧ ∃ i d, stays p'.calls = stays p.calls ++ [(i, d)] := by
  unfold hopOnce at e
  obtain ⟨q, c, e⟩ := bind_eq_ok.1 e
  obtain ⟨x, hx, e⟩ := bind_eq_ok.1 e
  obtain ⟨i, hi, e⟩ := bind_eq_ok.1 e
  obtain ⟨times, h2, e⟩ := bind_eq_ok.1 e
  obtain ⟨hops, h1, e⟩ := bind_eq_ok.1 e
  obtain ⟨count, h3, e⟩ := bind_eq_ok.1 e
  have e := ok_inj.1 e
  simp only [Prod.mk.injEq] at e
  obtain ⟨rfl, rfl⟩ := e
  have hs := stays_hop c
  have hseen : seen q.world 0 = [(i, x.dwell)] := by
    unfold walkerOf at hx
    split at hx
    · cases hx
    · next y hy =>
      have hx := ok_inj.1 hx
      subst hx
      unfold walkerSite at hi
      split at hi
      · cases hi
      · have hi := ok_inj.1 hi
        unfold seen
        rw [hy, ← hi]
        rfl
  rw [hseen] at hs
  refine ⟨?_, _, _, hs⟩
  rw [hs]
  generalize stays p.calls = l at *
  obtain ⟨j, v, v', hj, hv, hf, rfl⟩ := Escape.bump_ok h1
  obtain ⟨j', u, u', hj', hu, hg, rfl⟩ := Escape.bump_ok h2
  obtain rfl : j' = j := by omega
  have plus : ∀ {a c : Int}, chk (a + 1) = .ok c → c = a + 1 := by
    intro a c hc
    unfold chk at hc
    split at hc
    · exact (ok_inj.1 hc).symm
    · cases hc
  have hf := plus hf
  have h3 := plus h3
  have hg : u' = x.dwell := (ok_inj.1 hg).symm
  subst hf hg h3
  have hlt : j' < 16 := by
    rw [h.counted.hops] at hv
    obtain ⟨h, -⟩ := List.getElem?_eq_some_iff.1 hv
    simpa using h
  rw [h.counted.hops, List.getElem?_map, List.getElem?_range hlt] at hv
  simp only [Option.map_some, Option.some.injEq] at hv
  refine ⟨⟨?_, ?_, ?_⟩, ?_, ?_⟩
  · show b.hops.set _ _ = _
    rw [h.counted.hops]
    refine Eq.trans ?_ (Escape.tally (fun j : Nat => ((onSite l ((j : Int) + 1)).length : Int)) (fun j : Nat => ((onSite (l ++ [(i, x.dwell)]) ((j : Int) + 1)).length : Int)) j' ?_)
    · congr 1
      rw [← hv, onSite_snoc, if_pos hj, List.length_append]
      simp
    · intro k hk
      rw [onSite_snoc, if_neg (by omega)]
  · show b.count + 1 = _
    rw [h.counted.count, List.length_append]
    simp
  · show b.time + x.dwell = _
    rw [h.counted.time, Escape.time_append]
    simp [time]
  · show b.times.set _ _ = _
    rw [h.last]
    refine Eq.trans ?_ (Escape.tally (fun j : Nat => ((onSite l ((j : Int) + 1)).map Prod.snd).getLastD 0) (fun j : Nat => ((onSite (l ++ [(i, x.dwell)]) ((j : Int) + 1)).map Prod.snd).getLastD 0) j' ?_)
    · congr 1
      rw [onSite_snoc, if_pos hj]
      simp
    · intro k hk
      rw [onSite_snoc, if_neg (by omega)]
  · intro y hy
    rcases List.mem_append.1 hy with hy | hy
    · exact h.sites y hy
    · rw [List.mem_singleton.1 hy]
      exact ⟨by dsimp only; omega, by dsimp only; omega⟩

theorem kept_roam {r : Nat} {pb : ToF.Prog K × Books K} : ∀ {p : ToF.Prog K} {b : Books K}, Kept b (stays p.calls) →
    (∀ l x, stays p.calls = l ++ [x] → time l < 1000) → roam env mem luck r p b = .ok pb →
    Kept pb.2 (stays pb.1.calls) ∧ 1000 ≤ pb.2.time ∧ ∀ l x, stays pb.1.calls = l ++ [x] → time l < 1000 := by
  induction r with
  | zero =>
    intro p b h hl e
    unfold roam at e
    split at e
    · cases e
    · next ht => rw [← ok_inj.1 e]; exact ⟨h, not_lt.1 ht, hl⟩
  | succ r ih =>
    intro p b h hl e
    unfold roam at e
    split at e
    · next ht =>
      obtain ⟨⟨p', b'⟩, e1, e⟩ := bind_eq_ok.1 e
      obtain ⟨h', i, d, hs⟩ := kept_hop h e1
      refine ih h' ?_ e
      intro l x hx
      rw [hs] at hx
      have := (List.append_inj' hx rfl).1
      rw [← this, ← h.counted.time]
      exact ht
    · next ht => rw [← ok_inj.1 e]; exact ⟨h, not_lt.1 ht, hl⟩

theorem kept_block {r n0 : Nat} {threshold : Int} {pb : ToF.Prog K × Books K}
    (e : block env mem m threshold luck r ⟨World.new n0, []⟩ = .ok pb) :
    Kept pb.2 (stays pb.1.calls) ∧ 1000 ≤ pb.2.time ∧ ∀ l x, stays pb.1.calls = l ++ [x] → time l < 1000 := by
  unfold block at e
  obtain ⟨p1, c1, e⟩ := bind_eq_ok.1 e
  obtain ⟨p2, c2, e⟩ := bind_eq_ok.1 e
  obtain ⟨p3, c3, e⟩ := bind_eq_ok.1 e
  obtain ⟨p4, c4, e⟩ := bind_eq_ok.1 e
  obtain ⟨p5, c5, e⟩ := bind_eq_ok.1 e
  obtain ⟨p6, c6, e⟩ := bind_eq_ok.1 e
  obtain ⟨p7, c7, e⟩ := bind_eq_ok.1 e
  have hs : stays p7.calls = [] := by
    rw [stays_call c7 (by intro _ _ _ e; cases e), stays_call c6 (by intro _ _ _ e; cases e), stays_call c5 (by intro _ _ _ e; cases e),
      stays_call c4 (by intro _ _ _ e; cases e), stays_call c3 (by intro _ _ _ e; cases e), stays_call c2 (by intro _ _ _ e; cases e),
      stays_call c1 (by intro _ _ _ e; cases e)]
    rfl
  refine kept_roam (by rw [hs]; exact kept_new) ?_ e
  intro l x hx
  rw [hs] at hx
  simp at hx

end Mythical.Merging
