import Verif.Spec.Escape
import Verif.Lemmas.ToFStory

/-! # Helper lemmas for the program that lets electrons escape: the books -/

set_option linter.unusedSectionVars false
set_option linter.unusedVariables false

namespace Mythical.Escape
open World SystemSpec EscapeSpec
open _root_.Mythical.ToF (Prog call_ok call_of)
variable {K : Type} [Field K] [LinearOrder K] [IsStrictOrderedRing K] [FloorRing K]
variable {env : Env K} {mem : Addr → K} {m : IMap (IMap Addr)} {p p' : Prog K} {b b' : Books K} {luck : Luck K}

theorem stints_snoc (evs : List (Event K)) (ev : Event K) : stints (evs ++ [ev]) = noteStay (stints evs) ev := by
  unfold stints
  rw [List.foldl_append]
  rfl

theorem stints_call {op : Op K} (h : p.call env mem op = .ok p') (h1 : ∀ l, op ≠ .initializeWalkers l) (h2 : ∀ w k a, op ≠ .hop w k a) :
    stints p'.calls = stints p.calls := by
  obtain ⟨r, -, h3⟩ := call_ok h
  rw [h3, stints_snoc]
  unfold noteStay
  cases op <;> first | rfl | exact absurd rfl (h1 _) | exact absurd rfl (h2 _ _ _)

theorem bump_ok {V : Type} {l l' : List V} {i : Int} {f : V → Except Fault V} (h : bump l i f = .ok l') :
    ∃ (j : Nat) (v v' : V), i = (j : Int) + 1 ∧ l[j]? = some v ∧ f v = .ok v' ∧ l' = l.set j v' := by
  unfold bump at h
  obtain ⟨j, h1, h⟩ := bind_eq_ok.1 h
  have hj : j = i - 1 := by
    unfold chk at h1
    split at h1
    · exact (ok_inj.1 h1).symm
    · cases h1
  split at h
  · next h0 =>
    split at h
    · cases h
    · next v hv =>
      obtain ⟨v', h2, h⟩ := bind_eq_ok.1 h
      exact ⟨j.toNat, v, v', by omega, hv, h2, (ok_inj.1 h).symm⟩
  · cases h

theorem bump_of {V : Type} {l : List V} {i : Int} {f : V → Except Fault V} (h1 : 1 ≤ i) (h2 : i ≤ l.length) (hb : i ≤ INT_MAX)
    (hf : ∀ v ∈ l, ∃ v', f v = .ok v') : ∃ l', bump l i f = .ok l' := by
  unfold bump
  simp only [INT_MAX] at hb
  rw [chk_ok ⟨by simp only [INT_MIN]; omega, by simp only [INT_MAX]; omega⟩, ok_bind, if_pos (by omega)]
  have hlt : (i - 1).toNat < l.length := by omega
  rw [List.getElem?_eq_getElem hlt]
  obtain ⟨v', e⟩ := hf _ (List.getElem_mem hlt)
  simp only [e, ok_bind]
  exact ⟨_, rfl⟩

/-- One more stay that begins with a hop. -/
theorem tally {V : Type} {n : Nat} (f f' : Nat → V) (j : Nat) (hf : ∀ k, k ≠ j → f' k = f k) :
    ((List.range n).map f).set j (f' j) = (List.range n).map f' := by
  apply List.ext_getElem?
  intro k
  rw [List.getElem?_set]
  split
  · next h =>
    subst h
    simp only [List.length_map, List.length_range, List.getElem?_map]
    split
    · next h => rw [List.getElem?_range h]; rfl
    · next h => rw [List.getElem?_eq_none (by simpa using h)]; rfl
  · next h =>
    simp only [List.getElem?_map]
    by_cases hk : k < n
    · rw [List.getElem?_range hk]
      simp only [Option.map_some, Option.some.injEq]
      exact (hf k (fun e => h e.symm)).symm
    · rw [List.getElem?_eq_none (by simpa using hk)]
      rfl

theorem time_append (l l' : List (Int × K)) : time (l ++ l') = time l + time l' := by
  unfold time
  rw [List.map_append, List.sum_append]

theorem landings_snoc (L : List (List (Int × K))) (g : List (Int × K)) : landings (L ++ [g]) = landings L ++ g.tail := by
  unfold landings
  rw [List.flatMap_append]
  simp

/-- The books while an electron with the stays `a :: mid` is under way. -/
structure Open (b : Books K) (L : List (List (Int × K))) (l : List (Int × K)) : Prop where
  hops : b.hops = (List.range 14).map fun j : Nat => ((l.filter fun x => x.1 = (j : Int) + 1).length : Int)
  times : b.times = (List.range 14).map fun j : Nat => time (l.filter fun x => x.1 = (j : Int) + 1)
  escapes : b.escapes = L.map fun g => time g.tail

theorem open_add {L : List (List (Int × K))} {l : List (Int × K)} (h : Open b L l) {i : Int} {d : K} {hops : List Int} {times : List K}
    (h1 : bump b.hops i (fun n => chk (n + 1)) = .ok hops) (h2 : bump b.times i (fun t => .ok (t + d)) = .ok times) :
    Open { b with hops := hops, times := times } L (l ++ [(i, d)]) ∧ 1 ≤ i ∧ i ≤ 14 := by
  obtain ⟨j, v, v', hj, hv, hf, rfl⟩ := bump_ok h1
  obtain ⟨j', u, u', hj', hu, hg, rfl⟩ := bump_ok h2
  obtain rfl : j' = j := by omega
  have hf : v' = v + 1 := by
    unfold chk at hf
    split at hf
    · exact (ok_inj.1 hf).symm
    · cases hf
  have hg : u' = u + d := (ok_inj.1 hg).symm
  subst hf hg
  have hlt : j' < 14 := by
    rw [h.hops] at hv
    have := List.getElem?_eq_some_iff.1 hv
    obtain ⟨h, -⟩ := this
    simpa using h
  rw [h.hops, List.getElem?_map, List.getElem?_range hlt] at hv
  rw [h.times, List.getElem?_map, List.getElem?_range hlt] at hu
  simp only [Option.map_some, Option.some.injEq] at hv hu
  refine ⟨⟨?_, ?_, h.escapes⟩, by omega, by omega⟩
  · show b.hops.set _ _ = _
    rw [h.hops]
    refine Eq.trans ?_ (tally (fun j : Nat => ((l.filter fun x => x.1 = (j : Int) + 1).length : Int)) (fun j : Nat => (((l ++ [(i, d)]).filter fun x => x.1 = (j : Int) + 1).length : Int)) j' ?_)
    · congr 1
      rw [← hv, List.filter_append, List.length_append]
      simp [hj]
    · intro k hk
      rw [List.filter_append, List.length_append]
      simp only [List.filter_cons, List.filter_nil]
      rw [if_neg (by simp; omega)]
      simp
  · show b.times.set _ _ = _
    rw [h.times]
    refine Eq.trans ?_ (tally (fun j : Nat => time (l.filter fun x => x.1 = (j : Int) + 1)) (fun j : Nat => time ((l ++ [(i, d)]).filter fun x => x.1 = (j : Int) + 1)) j' ?_)
    · congr 1
      rw [← hu, List.filter_append, time_append]
      simp [hj, time]
    · intro k hk
      rw [List.filter_append, time_append]
      simp only [List.filter_cons, List.filter_nil]
      rw [if_neg (by simp; omega)]
      simp [time]

theorem seen_of {w : World K} {h : Int} {x : Walker K} (hx : w.walkers.get? h = some x) : seen w h = [(x.site, x.dwell)] := by
  unfold seen
  rw [hx]
  rfl

theorem stints_hop {wid h : Int} {a : Choices K} (hc : p.call env mem (.hop wid h a) = .ok p') {L : List (List (Int × K))} {g : List (Int × K)}
    (hL : stints p.calls = L ++ [g]) {x : Walker K} (hx : p'.world.walkers.get? h = some x) :
    stints p'.calls = L ++ [g ++ [(x.site, x.dwell)]] := by
  obtain ⟨r, -, h3⟩ := call_ok hc
  rw [h3, stints_snoc, hL]
  unfold noteStay
  simp only [seen_of hx, List.dropLast_concat, List.getLastD_concat]

/-- The loop of an electron. -/
theorem roam_kept {h : Int} {r : Nat} {total total' : K} (e : roam env mem luck h r p b total = .ok (p', b', total'))
    {L : List (List (Int × K))} {a : Int × K} {mid : List (Int × K)} (hL : stints p.calls = L ++ [a :: mid])
    (hb : Open b L (landings L ++ mid)) (ht : total = time mid) (hw : ∃ x, p.world.walkers.get? h = some x ∧ (a :: mid).getLast? = some (x.site, x.dwell))
    (hm : ∀ x ∈ mid, 1 ≤ x.1 ∧ x.1 ≤ 14) (hd : ∀ x ∈ mid.dropLast, x.1 ≤ 5) (ha : a.1 ≤ 5) :
    ∃ mid' z, stints p'.calls = L ++ [a :: (mid' ++ [z])] ∧ Open b' L (landings L ++ (mid' ++ [z])) ∧ total' = time (mid' ++ [z]) ∧
      (∀ x ∈ mid', 1 ≤ x.1 ∧ x.1 ≤ 5) ∧ 6 ≤ z.1 ∧ z.1 ≤ 14 := by
  induction r generalizing p b total mid with
  | zero =>
    obtain ⟨x, hx, hlast⟩ := hw
    unfold roam at e
    rw [walkerOf_of hx, ok_bind] at e
    obtain ⟨i, hi, e⟩ := bind_eq_ok.1 e
    obtain ⟨h0, rfl⟩ := walkerSite_ok.1 hi
    split at e
    · cases e
    · next hge =>
      have e := ok_inj.1 e
      simp only [Prod.mk.injEq] at e
      obtain ⟨rfl, rfl, rfl⟩ := e
      rcases List.eq_nil_or_concat mid with rfl | ⟨mid', z, rfl⟩
      · simp only [List.getLast?_singleton, Option.some.injEq] at hlast
        rw [hlast] at ha
        exact absurd ha (by show ¬ x.site ≤ 5; omega)
      · rw [List.concat_eq_append] at *
        rw [← List.cons_append, List.getLast?_concat, Option.some.injEq] at hlast
        rw [List.dropLast_concat] at hd
        refine ⟨mid', z, hL, hb, ht, fun y hy => ⟨(hm y (List.mem_append_left _ hy)).1, hd y hy⟩, ?_, ?_⟩
        · rw [hlast]; show 6 ≤ x.site; omega
        · exact (hm z (by simp)).2
  | succ r ih =>
    obtain ⟨x, hx, hlast⟩ := hw
    unfold roam at e
    rw [walkerOf_of hx, ok_bind] at e
    obtain ⟨i, hi, e⟩ := bind_eq_ok.1 e
    obtain ⟨h0, rfl⟩ := walkerSite_ok.1 hi
    split at e
    · next hlt =>
      obtain ⟨⟨p1, b1, total1⟩, e1, e⟩ := bind_eq_ok.1 e
      dsimp only at e
      unfold hopOnce at e1
      obtain ⟨p2, c, e1⟩ := bind_eq_ok.1 e1
      obtain ⟨y, hy, e1⟩ := bind_eq_ok.1 e1
      obtain ⟨j, hj, e1⟩ := bind_eq_ok.1 e1
      obtain ⟨-, rfl⟩ := walkerSite_ok.1 hj
      obtain ⟨hops, g1, e2⟩ := bind_eq_ok.1 e1
      obtain ⟨times, g2, e3⟩ := bind_eq_ok.1 e2
      have e4 := ok_inj.1 e3
      simp only [Prod.mk.injEq] at e4
      obtain ⟨rfl, rfl, rfl⟩ := e4
      have hy := walkerOf_ok hy
      obtain ⟨o1, o2, o3⟩ := open_add hb g1 g2
      refine ih (mid := mid ++ [(y.site, y.dwell)]) e (stints_hop c hL hy) (by rw [← List.append_assoc]; exact o1) ?_ ⟨y, hy, ?_⟩ ?_ ?_
      · rw [ht, time_append]; simp [time]
      · rw [← List.cons_append, List.getLast?_concat]
      · intro z hz
        rcases List.mem_append.1 hz with hz | hz
        · exact hm z hz
        · rw [List.mem_singleton.1 hz]; exact ⟨o2, o3⟩
      · rw [List.dropLast_concat]
        intro z hz
        rcases List.eq_nil_or_concat mid with rfl | ⟨mid', z', rfl⟩
        · cases hz
        · rw [List.concat_eq_append] at *
          rw [← List.cons_append, List.getLast?_concat, Option.some.injEq] at hlast
          rw [List.dropLast_concat] at hd
          rcases List.mem_append.1 hz with hz | hz
          · exact hd z hz
          · rw [List.mem_singleton.1 hz, hlast]; show x.site ≤ 5; omega
    · next hge =>
      have e := ok_inj.1 e
      simp only [Prod.mk.injEq] at e
      obtain ⟨rfl, rfl, rfl⟩ := e
      rcases List.eq_nil_or_concat mid with rfl | ⟨mid', z, rfl⟩
      · simp only [List.getLast?_singleton, Option.some.injEq] at hlast
        rw [hlast] at ha
        exact absurd ha (by show ¬ x.site ≤ 5; omega)
      · rw [List.concat_eq_append] at *
        rw [← List.cons_append, List.getLast?_concat, Option.some.injEq] at hlast
        rw [List.dropLast_concat] at hd
        refine ⟨mid', z, hL, hb, ht, fun y hy => ⟨(hm y (List.mem_append_left _ hy)).1, hd y hy⟩, ?_, ?_⟩
        · rw [hlast]; show 6 ≤ x.site; omega
        · exact (hm z (by simp)).2

theorem site_of (i : Nat) : ((i : Int).tmod 5 + 1) = (i : Int) % 5 + 1 := by
  rw [Int.tmod_eq_emod_of_nonneg (by omega)]

/-- The calls before the loop of an electron. -/
theorem brought {i : Nat} {p1 p2 p3 : Prog K} {e u : K} (c1 : p.call env mem (.newWalker i) = .ok p1)
    (c2 : p1.call env mem (.walkerOccupy i ((i : Int).tmod 5 + 1)) = .ok p2)
    (c3 : p2.call env mem (.initializeWalkers [⟨0, i, e, u⟩]) = .ok p3) :
    ∃ x, p3.world.walkers.get? (i : Int) = some x ∧ x.site = (i : Int) % 5 + 1 ∧ stints p3.calls = stints p.calls ++ [[(x.site, x.dwell)]] := by
  have t1 := stints_call c1 (fun _ e => nomatch e) (fun _ _ _ e => nomatch e)
  have t2 := stints_call c2 (fun _ e => nomatch e) (fun _ _ _ e => nomatch e)
  obtain ⟨r1, s1, -⟩ := call_ok c1
  obtain ⟨r2, s2, -⟩ := call_ok c2
  obtain ⟨r3, s3, q3⟩ := call_ok c3
  have w1 : p1.world = p.world.newWalker i := by
    simp only [World.step, Prod.mk.injEq] at s1
    exact s1.2.symm
  have ew : p1.world.walkerOccupy i ((i : Int).tmod 5 + 1) =
      .ok { p1.world with walkers := p1.world.walkers.set i ⟨(i : Int).tmod 5 + 1, unassignedId, -1⟩ } := by
    unfold walkerOccupy
    rw [walkerOf_of (x := ⟨unassignedId, unassignedId, -1⟩) (by rw [w1]; exact IMap.get?_set_self _ _ _)]
    rfl
  have w2 : p2.world = { p1.world with walkers := p1.world.walkers.set i ⟨(i : Int).tmod 5 + 1, unassignedId, -1⟩ } := by
    simp only [World.step, ew, World.simple, Prod.mk.injEq] at s2
    exact s2.2.symm
  have hx2 : p2.world.walkers.get? (i : Int) = some ⟨(i : Int).tmod 5 + 1, unassignedId, -1⟩ := by
    rw [w2]; exact IMap.get?_set_self _ _ _
  simp only [World.step, World.initializeWalkers] at s3
  split at s3
  · simp [Except.map] at s3
  simp only [World.initWalkers] at s3
  split at s3
  · simp [Except.map] at s3
  · next w e3 =>
    obtain ⟨x, w1', t, w2', n, w3', hx, h0, hk, -, -, -, rfl⟩ := initWalker_ok e3
    have hw : p3.world = _ := (congrArg Prod.snd s3).symm
    rw [hx2] at hx
    have hx := Option.some.inj hx
    have h3 : p3.world.walkers.get? (i : Int) = some ⟨(i : Int).tmod 5 + 1, n, t⟩ := by
      rw [hw, ← hx]
      exact IMap.get?_set_self _ _ _
    refine ⟨_, h3, site_of i, ?_⟩
    rw [q3, stints_snoc, t2, t1]
    unfold noteStay
    simp only [List.flatMap_cons, List.flatMap_nil, seen_of h3, List.append_nil]

/-- An electron. -/
theorem electron_kept {i r : Nat} {p p' : Prog K} (e : electron env mem luck r (p, b) i = .ok (p', b')) (hb : Kept b (stints p.calls)) :
    ∃ g, stints p'.calls = stints p.calls ++ [g] ∧ OneEscape i g ∧ Kept b' (stints p'.calls) := by
  unfold electron at e
  obtain ⟨p1, c1, e⟩ := bind_eq_ok.1 e
  obtain ⟨p2, c2, e⟩ := bind_eq_ok.1 e
  obtain ⟨p3, c3, e⟩ := bind_eq_ok.1 e
  obtain ⟨⟨p4, b4, total⟩, e4, e⟩ := bind_eq_ok.1 e
  dsimp only at e
  obtain ⟨p5, c5, e⟩ := bind_eq_ok.1 e
  have e := ok_inj.1 e
  simp only [Prod.mk.injEq] at e
  obtain ⟨rfl, rfl⟩ := e
  obtain ⟨x, hx, hs, hst⟩ := brought c1 c2 c3
  obtain ⟨mid, z, h1, h2, h3, h4, h5, h6⟩ := roam_kept e4 hst (by rw [List.append_nil]; exact ⟨hb.hops, hb.times, hb.escapes⟩) rfl
    ⟨x, hx, rfl⟩ (fun _ h => nomatch h) (fun _ h => nomatch h) (by show x.site ≤ 5; omega)
  have h7 := stints_call c5 (fun _ e => nomatch e) (fun _ _ _ e => nomatch e)
  refine ⟨_, h7.trans h1, ⟨_, mid, z, rfl, hs, h4, h5, h6⟩, ?_⟩
  rw [h7, h1]
  refine ⟨?_, ?_, ?_⟩
  · rw [landings_snoc]; exact h2.hops
  · rw [landings_snoc]; exact h2.times
  · show b4.escapes ++ [total] = _
    rw [h2.escapes, List.map_append, h3]
    rfl

/-- The first `n` electrons. -/
theorem electrons_kept {n r : Nat} {p p' : Prog K} (h0 : stints p.calls = [])
    (e : (List.range n).foldlM (electron env mem luck r) (p, Books.new) = .ok (p', b')) :
    (stints p'.calls).length = n ∧ (∀ i g, (stints p'.calls)[i]? = some g → OneEscape i g) ∧ Kept b' (stints p'.calls) := by
  induction n generalizing p' b' with
  | zero =>
    have e := ok_inj.1 e
    simp only [Prod.mk.injEq] at e
    obtain ⟨rfl, rfl⟩ := e
    rw [h0]
    refine ⟨rfl, fun i g h => by simp at h, rfl, rfl, rfl⟩
  | succ n ih =>
    rw [List.range_succ, List.foldlM_append] at e
    obtain ⟨⟨p1, b1⟩, e1, e⟩ := bind_eq_ok.1 e
    obtain ⟨q1, q2, q3⟩ := ih e1
    simp only [List.foldlM_cons, List.foldlM_nil] at e
    obtain ⟨⟨p2, b2⟩, e2, e⟩ := bind_eq_ok.1 e
    have e := ok_inj.1 e
    simp only [Prod.mk.injEq] at e
    obtain ⟨rfl, rfl⟩ := e
    obtain ⟨g, r1, r2, r3⟩ := electron_kept e2 q3
    refine ⟨by rw [r1]; simp [q1], fun i g' h => ?_, r3⟩
    rw [r1] at h
    by_cases hi : i < n
    · rw [List.getElem?_append_left (by omega)] at h
      exact q2 i g' h
    · rw [List.getElem?_append_right (by omega), q1] at h
      have : i = n := by
        have := (List.getElem?_eq_some_iff.1 h).1
        simp at this
        omega
      subst this
      simp at h
      rw [← h]
      exact r2

theorem system_stints {ratio : Option K} {threshold : Int} {p p' : Prog K} (e : system env mem m ratio threshold p = .ok p') :
    stints p'.calls = stints p.calls := by
  unfold system at e
  obtain ⟨p1, c1, e⟩ := bind_eq_ok.1 e
  obtain ⟨p2, c2, e⟩ := bind_eq_ok.1 e
  obtain ⟨p3, c3, e⟩ := bind_eq_ok.1 e
  obtain ⟨p4, c4, c5⟩ := bind_eq_ok.1 e
  rw [stints_call c5 (fun _ e => nomatch e) (fun _ _ _ e => nomatch e), stints_call c4 (fun _ e => nomatch e) (fun _ _ _ e => nomatch e),
    stints_call c3 (fun _ e => nomatch e) (fun _ _ _ e => nomatch e)]
  cases ratio with
  | none => rw [← ok_inj.1 c2]; exact stints_call c1 (fun _ e => nomatch e) (fun _ _ _ e => nomatch e)
  | some q =>
    exact (stints_call (env := env) (mem := mem) (p := p1) (op := .setPerformanceRatio q) c2 (fun _ e => nomatch e) (fun _ _ _ e => nomatch e)).trans <|
      stints_call c1 (fun _ e => nomatch e) (fun _ _ _ e => nomatch e)

end Mythical.Escape
