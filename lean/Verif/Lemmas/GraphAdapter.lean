import Verif.Spec.GraphAdapter
import Verif.Lemmas.SystemExit
import Verif.Lemmas.SystemSolid

/-! # Lemmas about the graphs given to the graph library -/

set_option linter.unusedSectionVars false
set_option linter.unusedVariables false

namespace Mythical.GraphAdapter
open Mythical GraphSpec
variable {K : Type} [Field K] [LinearOrder K] [IsStrictOrderedRing K] [FloorRing K]
variable {mem : Addr → K} {sites : SiteContainer K} {ids : List Int}

theorem nodes_spec (ids acc : List Int) (ha : acc.Nodup) : (nodes ids acc).Nodup ∧ ∀ i, i ∈ nodes ids acc ↔ i ∈ acc ∨ i ∈ ids := by
  induction ids generalizing acc with
  | nil => exact ⟨ha, fun i => by simp [nodes]⟩
  | cons j ids ih =>
    unfold nodes
    split
    · next h =>
      refine ⟨(ih acc ha).1, fun i => ?_⟩
      rw [(ih acc ha).2, List.mem_cons]
      constructor
      · rintro (h' | h')
        · exact .inl h'
        · exact .inr (.inr h')
      · rintro (h' | rfl | h')
        · exact .inl h'
        · exact .inl h
        · exact .inr h'
    · next h =>
      have hn : (acc ++ [j]).Nodup := by
        rw [List.nodup_append]
        exact ⟨ha, by simp, fun a h1 b h2 e => h (by rw [List.mem_singleton.1 h2] at e; exact e ▸ h1)⟩
      refine ⟨(ih _ hn).1, fun i => ?_⟩
      rw [(ih _ hn).2, List.mem_append, List.mem_singleton, List.mem_cons, or_assoc]

theorem getRates_get? (i : Int) : sites.getRates.get? i = (sites.get? i).map (·.neigh) := by
  unfold SiteContainer.getRates
  induction sites with
  | nil => rfl
  | cons p m ih =>
    obtain ⟨k, s⟩ := p
    simp only [List.map_cons, IMap.get?]
    split
    · rfl
    · exact ih

theorem foldl_cons_eq {α β : Type} (f : α → β) (l : List α) (acc : List β) :
    l.foldl (fun acc a => f a :: acc) acc = (l.map f).reverse ++ acc := by
  induction l generalizing acc with
  | nil => rfl
  | cons a l ih => rw [List.foldl_cons, ih]; simp

theorem foldl_edges {β : Type} (g : Int → List β) (ids : List Int) (acc : List β) :
    ids.foldl (fun acc i => g i ++ acc) acc = (ids.reverse.flatMap g) ++ acc := by
  induction ids generalizing acc with
  | nil => rfl
  | cons i ids ih => rw [List.foldl_cons, ih]; simp

/-- The edges for a function of the rates. -/
def edgesBy (f : K → K) (mem : Addr → K) (sites : SiteContainer K) (i : Int) : List (WEdge K) :=
  (((sites.getRates.get? i).getD []).map fun na => (⟨i, na.1, f (mem na.2)⟩ : WEdge K)).reverse

theorem edgesOfSite_eq (i : Int) : edgesOfSite mem sites i = edgesBy id mem sites i := by
  unfold edgesOfSite ratesOfSite edgesBy
  rw [foldl_cons_eq (fun na : Int × Addr => (⟨i, na.1, mem na.2⟩ : WEdge K)), List.append_nil]
  rfl

theorem edgesOfSites_eq : edgesOfSites mem sites ids = ids.reverse.flatMap (edgesBy id mem sites) := by
  unfold edgesOfSites
  rw [← List.append_nil (List.flatMap _ _), ← foldl_edges]
  congr 1
  funext acc i
  unfold ratesOfSite edgesBy
  rw [foldl_cons_eq (fun na : Int × Addr => (⟨i, na.1, mem na.2⟩ : WEdge K))]
  rfl

theorem timeEdgesOfSites_eq : timeEdgesOfSites mem sites ids = ids.reverse.flatMap (edgesBy (1 / ·) mem sites) := by
  unfold timeEdgesOfSites
  rw [← List.append_nil (List.flatMap _ _), ← foldl_edges]
  congr 1
  funext acc i
  unfold edgesBy
  rw [foldl_cons_eq (fun na : Int × Addr => (⟨i, na.1, 1 / mem na.2⟩ : WEdge K))]

theorem mem_edgesBy (hp : ∀ i s, sites.get? i = some s → s.neigh.WF) {f : K → K} {i : Int} {e : WEdge K} :
    e ∈ edgesBy f mem sites i ↔ e.src = i ∧ ∃ r, BasinSpec.rate mem sites i e.dst = some r ∧ e.weight = f r := by
  unfold edgesBy BasinSpec.rate
  rw [List.mem_reverse, List.mem_map, getRates_get?]
  cases hs : sites.get? i with
  | none => simp
  | some s =>
    simp only [Option.map_some, Option.getD_some, Option.bind_some, Option.map_eq_some_iff]
    constructor
    · rintro ⟨⟨j, a⟩, hja, rfl⟩
      exact ⟨rfl, mem a, ⟨a, IMap.get?_of_mem (hp i s hs) hja, rfl⟩, rfl⟩
    · rintro ⟨h1, r, ⟨a, ha, rfl⟩, h2⟩
      obtain ⟨src, dst, wt⟩ := e
      simp only at h1 h2
      subst h1 h2
      exact ⟨(dst, a), IMap.mem_of_get? ha, rfl⟩

theorem nodup_edgesBy (hp : ∀ i s, sites.get? i = some s → s.neigh.WF) {f : K → K} (i : Int) :
    ((edgesBy f mem sites i).map fun e => (e.src, e.dst)).Nodup := by
  unfold edgesBy
  rw [List.map_reverse, List.nodup_reverse, List.map_map, getRates_get?]
  cases hs : sites.get? i with
  | none => simp
  | some s =>
    simp only [Option.map_some, Option.getD_some]
    have := hp i s hs
    unfold IMap.WF at this
    refine List.Nodup.of_map Prod.snd ?_
    rw [List.map_map]
    exact this

theorem mem_flatMap (hp : ∀ i s, sites.get? i = some s → s.neigh.WF) {f : K → K} {e : WEdge K} :
    e ∈ ids.reverse.flatMap (edgesBy f mem sites) ↔
      e.src ∈ ids ∧ ∃ r, BasinSpec.rate mem sites e.src e.dst = some r ∧ e.weight = f r := by
  rw [List.mem_flatMap]
  constructor
  · rintro ⟨i, hi, he⟩
    obtain ⟨rfl, h⟩ := (mem_edgesBy hp).1 he
    exact ⟨List.mem_reverse.1 hi, h⟩
  · rintro ⟨h1, h2⟩
    exact ⟨e.src, List.mem_reverse.2 h1, (mem_edgesBy hp).2 ⟨rfl, h2⟩⟩

theorem nodup_flatMap (hp : ∀ i s, sites.get? i = some s → s.neigh.WF) {f : K → K} {l : List Int} (hn : l.Nodup) :
    ((l.flatMap (edgesBy f mem sites)).map fun e => (e.src, e.dst)).Nodup := by
  induction l with
  | nil => simp
  | cons i l ih =>
    rw [List.nodup_cons] at hn
    rw [List.flatMap_cons, List.map_append, List.nodup_append]
    refine ⟨nodup_edgesBy hp i, ih hn.2, ?_⟩
    rintro a ha b hb rfl
    obtain ⟨e, he, rfl⟩ := List.mem_map.1 ha
    obtain ⟨e', he', hee⟩ := List.mem_map.1 hb
    obtain ⟨j, hj, hej⟩ := List.mem_flatMap.1 he'
    have h1 := ((mem_edgesBy hp).1 he).1
    have h2 := ((mem_edgesBy hp).1 hej).1
    have h3 : e'.src = e.src := congrArg Prod.fst hee
    exact hn.1 (by rw [← h1, ← h3, h2]; exact hj)

theorem walk_path (hp : ∀ i s, sites.get? i = some s → s.neigh.WF) {x y : Int} {t : K}
    (h : Walk (timeGraph mem sites ids) x y t) : y ∈ ids → BasinSpec.PathTime mem sites ids x y t := by
  induction h with
  | start => exact fun _ => .start
  | hop h e he hi ih =>
    intro hy
    subst hi
    change e ∈ timeEdgesOfSites mem sites ids at he
    rw [timeEdgesOfSites_eq, mem_flatMap hp] at he
    obtain ⟨h1, r, hr, hw⟩ := he
    rw [hw]
    exact .hop (ih h1) hy r hr

theorem path_walk (hp : ∀ i s, sites.get? i = some s → s.neigh.WF) {x y : Int} {t : K} (hx : x ∈ ids)
    (h : BasinSpec.PathTime mem sites ids x y t) : Walk (timeGraph mem sites ids) x y t ∧ y ∈ ids := by
  induction h with
  | start => exact ⟨.start, hx⟩
  | @hop i j t h hj r hr ih =>
    refine ⟨Walk.hop ih.1 ⟨i, j, 1 / r⟩ ?_ rfl, hj⟩
    change _ ∈ timeEdgesOfSites mem sites ids
    rw [timeEdgesOfSites_eq, mem_flatMap hp]
    exact ⟨ih.2, r, hr, rfl⟩

theorem reach_path {x y : Int} (h : BasinSpec.Reach mem sites ids x y) : ∃ t, BasinSpec.PathTime mem sites ids x y t := by
  induction h with
  | start => exact ⟨0, .start⟩
  | hop h hj r hr ih => obtain ⟨t, ht⟩ := ih; exact ⟨_, .hop ht hj r hr⟩

theorem path_reach {x y : Int} {t : K} (h : BasinSpec.PathTime mem sites ids x y t) : BasinSpec.Reach mem sites ids x y := by
  induction h with
  | start => exact .start
  | hop h hj r hr ih => exact .hop ih hj r hr

theorem path_nonneg (hp : BasinSpec.Positive mem sites) {x y : Int} {t : K} (h : BasinSpec.PathTime mem sites ids x y t) : 0 ≤ t := by
  induction h with
  | start => exact le_rfl
  | hop h hj r hr ih => exact add_nonneg ih (one_div_nonneg.2 (hp.pos _ _ _ hr).le)

theorem path_pos (hp : BasinSpec.Positive mem sites) {x y : Int} {t : K} (h : BasinSpec.PathTime mem sites ids x y t)
    (hxy : x ≠ y) : 0 < t := by
  cases h with
  | start => exact absurd rfl hxy
  | hop h hj r hr => exact add_pos_of_nonneg_of_pos (path_nonneg hp h) (one_div_pos.2 (hp.pos _ _ _ hr))

end Mythical.GraphAdapter
