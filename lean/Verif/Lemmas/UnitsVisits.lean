import Verif.Lemmas.UnitsCluster

/-! # The unit of time: visit counts, updates and merges of clusters -/

set_option linter.unusedSectionVars false

namespace Mythical.Units
open Mythical

/-! ## Results that agree, except for the conversion of a count to `int` -/

section agree
variable {α β σ τ : Type}

/-- The conversion of a count of visits to `int` is undefined. -/
def Bad (r : Except Fault α) : Prop := r = .error (.ub .floatToInt)

/-- Both calls return values in the relation `P`, or both fail in the same way, or a count cannot be converted in one of them. -/
def Agree (P : α → β → Prop) (r : Except Fault α) (r' : Except Fault β) : Prop :=
  (∃ a b, r = .ok a ∧ r' = .ok b ∧ P a b) ∨ (∃ e, r = .error e ∧ r' = .error e) ∨ Bad r ∨ Bad r'

/-- The same for calls that leave a state behind. -/
def AgreeS (P : α → β → Prop) (S : σ → τ → Prop) (x : Except Fault α × σ) (y : Except Fault β × τ) : Prop :=
  (∃ a b, x.1 = .ok a ∧ y.1 = .ok b ∧ P a b ∧ S x.2 y.2) ∨ (∃ e, x.1 = .error e ∧ y.1 = .error e ∧ S x.2 y.2) ∨
    Bad x.1 ∨ Bad y.1

theorem Agree.ok {P : α → β → Prop} {a : α} {b : β} (h : P a b) : Agree P (.ok a) (.ok b) := Or.inl ⟨a, b, rfl, rfl, h⟩
theorem Agree.error {P : α → β → Prop} (e : Fault) : Agree P (.error e) (.error e) := Or.inr (Or.inl ⟨e, rfl, rfl⟩)

theorem AgreeS.ok {P : α → β → Prop} {S : σ → τ → Prop} {a : α} {b : β} {s : σ} {t : τ} (h : P a b) (hs : S s t) :
    AgreeS P S (.ok a, s) (.ok b, t) := Or.inl ⟨a, b, rfl, rfl, h, hs⟩
theorem AgreeS.error {P : α → β → Prop} {S : σ → τ → Prop} {e : Fault} {s : σ} {t : τ} (hs : S s t) :
    AgreeS P S (.error e, s) (.error e, t) := Or.inr (Or.inl ⟨e, rfl, rfl, hs⟩)
theorem AgreeS.badL {P : α → β → Prop} {S : σ → τ → Prop} {x : Except Fault α × σ} {y : Except Fault β × τ} (h : Bad x.1) :
    AgreeS P S x y := Or.inr (Or.inr (Or.inl h))
theorem AgreeS.badR {P : α → β → Prop} {S : σ → τ → Prop} {x : Except Fault α × σ} {y : Except Fault β × τ} (h : Bad y.1) :
    AgreeS P S x y := Or.inr (Or.inr (Or.inr h))

theorem Agree.bind {α' β' : Type} {P : α → β → Prop} {Q : α' → β' → Prop} {r : Except Fault α} {r' : Except Fault β}
    {f : α → Except Fault α'} {g : β → Except Fault β'} (h : Agree P r r') (hf : ∀ a b, P a b → Agree Q (f a) (g b)) :
    Agree Q (r >>= f) (r' >>= g) := by
  rcases h with ⟨a, b, rfl, rfl, h⟩ | ⟨e, rfl, rfl⟩ | h | h
  · exact hf a b h
  · exact Agree.error e
  · rw [h]; exact Or.inr (Or.inr (Or.inl rfl))
  · rw [h]; exact Or.inr (Or.inr (Or.inr rfl))

theorem Agree.map {γ : Type} {f : α → γ} {P : α → γ → Prop} {r : Except Fault α} (h : ∀ a, r = .ok a → P a (f a)) :
    Agree P r (r.map f) := by
  cases r with
  | error e => exact Agree.error e
  | ok a => exact Agree.ok (h a rfl)

end agree

variable {V W : Type}

theorem has_iff_keys (m : IMap V) (i : Int) : m.has i = true ↔ i ∈ m.keys := by
  induction m with
  | nil => simp [IMap.has, IMap.get?, IMap.keys]
  | cons a m ih =>
    obtain ⟨j, v⟩ := a
    unfold IMap.has IMap.keys at *
    simp only [IMap.get?, List.map_cons, List.mem_cons]
    split
    · next h => simp [h]
    · next h => rw [ih]; constructor
                · exact Or.inr
                · rintro (rfl | h')
                  · exact absurd rfl h
                  · exact h'

theorem has_of_keys {m : IMap V} {m' : IMap W} (h : m'.keys = m.keys) (i : Int) : m'.has i = m.has i := by
  rw [Bool.eq_iff_iff, has_iff_keys, has_iff_keys, h]

theorem keys_set_of_keys {m : IMap V} {m' : IMap W} (h : m'.keys = m.keys) (i : Int) (v : V) (v' : W) :
    (m'.set i v').keys = (m.set i v).keys := by
  induction m generalizing m' with
  | nil =>
    cases m' with
    | nil => rfl
    | cons a m' => simp [IMap.keys] at h
  | cons a m ih =>
    cases m' with
    | nil => simp [IMap.keys] at h
    | cons a' m' =>
      obtain ⟨j, x⟩ := a
      obtain ⟨j', x'⟩ := a'
      have h1 : j' = j := by simp [IMap.keys] at h; exact h.1
      have h2 : IMap.keys m' = IMap.keys m := by simp [IMap.keys] at h; exact h.2
      subst h1
      have := ih h2
      unfold IMap.set
      split
      · show _ :: IMap.keys m' = _ :: IMap.keys m; rw [h2]
      · show _ :: IMap.keys (IMap.set m' i v') = _ :: IMap.keys (IMap.set m i v); rw [this]

variable {K : Type} [Field K] [LinearOrder K] [IsStrictOrderedRing K] [FloorRing K]
variable {k : K} (hk : 0 < k)

theorem SameCluster.mk' {c : Cluster K} {sv : IMap K} (h : sv.keys = c.siteVisits.keys) : SameCluster k c (cluster k sv c) :=
  ⟨sv, h, rfl⟩

theorem Rel.true {α β : Type} (a : α) (b : β) : (fun (_ : α) (_ : β) => True) a b := trivial

include hk in
theorem visitShare_units (sv : IMap K) (c : Cluster K) (t d : K) (i : Int) :
    (∃ a b, c.visitShare t d i = .ok a ∧ (cluster k sv c).visitShare (k * t) d i = .ok b) ∨
    ∃ e, c.visitShare t d i = .error e ∧ (cluster k sv c).visitShare (k * t) d i = .error e := by
  unfold Cluster.visitShare
  have e1 : (cluster k sv c).sites.get? i = (c.sites.get? i).map (site k) := by rw [sites_units, get?_mapVal]
  have e2 : (cluster k sv c).internalDwell.get? i = (c.internalDwell.get? i).map (k * ·) := by
    show IMap.get? (IMap.mapVal (fun _ t => k * t) c.internalDwell) i = _
    rw [get?_mapVal]
  have e3 : (cluster k sv c).resolution = c.resolution := rfl
  rw [e1, e2, e3]
  cases c.sites.get? i with
  | none => exact Or.inr ⟨_, rfl, rfl⟩
  | some s =>
    cases c.internalDwell.get? i with
    | none => exact Or.inr ⟨_, rfl, rfl⟩
    | some d =>
      simp only [Option.map]
      by_cases h : d = 0 ∨ c.resolution = 0
      · rw [if_pos h, if_pos (h.imp_left fun h => by rw [h, mul_zero])]
        exact Or.inr ⟨_, rfl, rfl⟩
      · rw [if_neg h, if_neg (fun h' => h (h'.imp_left fun h => (mul_eq_zero.1 h).resolve_left hk.ne'))]
        exact Or.inl ⟨_, _, rfl, rfl⟩

include hk in
theorem flushLoop_units (t d : K) : ∀ (l : List Int) (c c' : Cluster K), SameCluster k c c' →
    AgreeS (fun _ _ => True) (SameCluster k) (c.flushLoop t d l) (c'.flushLoop (k * t) d l) := by
  intro l
  induction l with
  | nil => intro c c' h; exact AgreeS.ok trivial h
  | cons i l ih =>
    rintro c _ ⟨sv, hsv, rfl⟩
    unfold Cluster.flushLoop
    rcases visitShare_units hk sv c t d i with ⟨a, b, e, e'⟩ | ⟨x, e, e'⟩
    · rw [e, e']
      apply ih
      exact ⟨sv.set i (sv.at0 i + b), keys_set_of_keys hsv _ _ _, rfl⟩
    · rw [e, e']
      exact AgreeS.error ⟨sv, hsv, rfl⟩

include hk in
theorem flush_units (t : K) (c c' : Cluster K) (h : SameCluster k c c') :
    AgreeS (fun _ _ => True) (SameCluster k) (c.flush t) (c'.flush (k * t)) := by
  obtain ⟨sv, hsv, rfl⟩ := h
  unfold Cluster.flush
  show AgreeS _ _ (if c.visits = c.prevVisits then _ else _) (if c.visits = c.prevVisits then _ else match chk (c.visits - c.prevVisits) with
    | .error e => (.error e, cluster k sv c)
    | .ok d => match (cluster k sv c).flushLoop (k * t) (d : K) sv.keys with
      | (.ok _, c') => (.ok (), { c' with prevVisits := c'.visits })
      | r => r)
  rw [hsv]
  split
  · exact AgreeS.ok trivial ⟨sv, hsv, rfl⟩
  · cases chk (c.visits - c.prevVisits) with
    | error e => exact AgreeS.error ⟨sv, hsv, rfl⟩
    | ok d =>
      simp only
      have := flushLoop_units hk t (d : K) c.siteVisits.keys c _ ⟨sv, hsv, rfl⟩
      generalize c.flushLoop t (d : K) c.siteVisits.keys = x at this ⊢
      generalize (cluster k sv c).flushLoop (k * t) (d : K) c.siteVisits.keys = y at this ⊢
      obtain ⟨r, s⟩ := x
      obtain ⟨r', s'⟩ := y
      rcases this with ⟨a, b, h1, h2, _, h⟩ | ⟨e, h1, h2, h⟩ | h | h
      · simp only at h1 h2 h
        subst h1 h2
        obtain ⟨sv', hsv', rfl⟩ := h
        exact AgreeS.ok trivial ⟨sv', hsv', rfl⟩
      · simp only at h1 h2 h
        subst h1 h2
        exact AgreeS.error h
      · have : r = _ := h
        subst this
        exact AgreeS.badL rfl
      · have : r' = _ := h
        subst this
        exact AgreeS.badR rfl

include hk in
theorem getVisitFrequency_units (c c' : Cluster K) (h : SameCluster k c c') (i : Int) :
    AgreeS (fun _ _ => True) (SameCluster k) (c.getVisitFrequency i) (c'.getVisitFrequency i) := by
  obtain ⟨sv, hsv, rfl⟩ := h
  unfold Cluster.getVisitFrequency
  have hh : (cluster k sv c).siteVisits.has i = c.siteVisits.has i := has_of_keys hsv i
  rw [hh]
  split
  · have ht : (cluster k sv c).tau = c.tau.map (k * ·) := rfl
    rw [ht]
    cases c.tau with
    | none => exact AgreeS.error ⟨sv, hsv, rfl⟩
    | some t =>
      simp only [Option.map]
      have := flush_units hk t c _ ⟨sv, hsv, rfl⟩
      generalize c.flush t = x at this ⊢
      generalize (cluster k sv c).flush (k * t) = y at this ⊢
      obtain ⟨r, s⟩ := x
      obtain ⟨r', s'⟩ := y
      rcases this with ⟨a, b, h1, h2, _, h⟩ | ⟨e, h1, h2, h⟩ | h | h
      · simp only at h1 h2 h
        subst h1 h2
        simp only
        split
        · split
          · exact AgreeS.ok trivial h
          · exact AgreeS.badR rfl
        · exact AgreeS.badL rfl
      · simp only at h1 h2 h
        subst h1 h2
        exact AgreeS.error h
      · have : r = _ := h
        subst this
        exact AgreeS.badL rfl
      · have : r' = _ := h
        subst this
        exact AgreeS.badR rfl
  · exact AgreeS.error ⟨sv, hsv, rfl⟩

theorem setVisitFrequency_units (c c' : Cluster K) (h : SameCluster k c c') (f f' i : Int) :
    Agree (SameCluster k) (c.setVisitFrequency f i) (c'.setVisitFrequency f' i) := by
  obtain ⟨sv, hsv, rfl⟩ := h
  unfold Cluster.setVisitFrequency
  have hh : (cluster k sv c).siteVisits.has i = c.siteVisits.has i := has_of_keys hsv i
  have ht : (cluster k sv c).tau.isSome = c.tau.isSome := by
    show (c.tau.map (k * ·)).isSome = _
    cases c.tau <;> rfl
  rw [hh, ht]
  split
  · exact Agree.ok ⟨sv.set i (f' : K), keys_set_of_keys hsv _ _ _, rfl⟩
  · exact Agree.error _

include hk in
theorem visitFreqsLoop_units : ∀ (l : List Int) (c c' : Cluster K) (acc acc' : IMap Int), SameCluster k c c' →
    acc'.keys = acc.keys →
    AgreeS (fun a b => IMap.keys b = IMap.keys a) (SameCluster k) (c.visitFreqsLoop acc l) (c'.visitFreqsLoop acc' l) := by
  intro l
  induction l with
  | nil => intro c c' acc acc' h ha; exact AgreeS.ok ha h
  | cons i l ih =>
    intro c c' acc acc' h ha
    unfold Cluster.visitFreqsLoop
    have := getVisitFrequency_units hk c c' h i
    generalize c.getVisitFrequency i = x at this ⊢
    generalize c'.getVisitFrequency i = y at this ⊢
    obtain ⟨r, s⟩ := x
    obtain ⟨r', s'⟩ := y
    rcases this with ⟨a, b, h1, h2, _, h⟩ | ⟨e, h1, h2, h⟩ | h | h
    · simp only at h1 h2 h
      subst h1 h2
      exact ih _ _ _ _ h (keys_set_of_keys ha _ _ _)
    · simp only at h1 h2 h
      subst h1 h2
      exact AgreeS.error h
    · have : r = _ := h
      subst this
      exact AgreeS.badL rfl
    · have : r' = _ := h
      subst this
      exact AgreeS.badR rfl

theorem restoreVisits_units (freqs freqs' : IMap Int) (hf : freqs'.keys = freqs.keys) : ∀ (l : List Int) (c c' : Cluster K),
    SameCluster k c c' → Agree (SameCluster k) (Cluster.restoreVisits freqs c l) (Cluster.restoreVisits freqs' c' l) := by
  intro l
  induction l with
  | nil => intro c c' h; exact Agree.ok h
  | cons i l ih =>
    intro c c' h
    unfold Cluster.restoreVisits
    have h0 : SameCluster k { c with siteVisits := c.siteVisits.set i 0 } { c' with siteVisits := c'.siteVisits.set i 0 } := by
      obtain ⟨sv, hsv, rfl⟩ := h
      exact ⟨sv.set i 0, keys_set_of_keys hsv _ _ _, rfl⟩
    have hh := has_of_keys hf i
    unfold IMap.has at hh
    cases h1 : freqs.get? i with
    | none =>
      cases h2 : freqs'.get? i with
      | some f => rw [h1, h2] at hh; cases hh
      | none => exact ih _ _ h0
    | some f =>
      cases h2 : freqs'.get? i with
      | none => rw [h1, h2] at hh; cases hh
      | some f' =>
        exact Agree.bind (setVisitFrequency_units _ _ h0 f f' i) fun a b h => ih a b h

theorem calcInternalDwell_visits (mem : Addr → K) (c c' : Cluster K) (h : c.calcInternalDwell mem = .ok c') :
    c'.siteVisits = c.siteVisits := by
  unfold Cluster.calcInternalDwell at h
  simp only at h
  split at h
  · cases h
  · cases h; rfl

include hk in
theorem rebuild_units (env : Env K) (mem : Addr → K) (freqs freqs' : IMap Int) (hf : freqs'.keys = freqs.keys) (c c' : Cluster K)
    (h : SameCluster k c c') : Agree (SameCluster k) (Cluster.rebuild env mem freqs c) (Cluster.rebuild env (rates k mem) freqs' c') := by
  obtain ⟨sv, hsv, rfl⟩ := h
  unfold Cluster.rebuild
  rw [solveMaster_units hk]
  cases c.solveMasterEquation env mem with
  | error e => exact Agree.error e
  | ok c1 =>
    simp only [Except.map, ok_bind]
    rw [calcSumEscape_units, calcSumInternal_units, calcHopOff_units hk]
    cases ((c1.calcSumEscape mem).calcSumInternal mem).calcHopOff mem with
    | error e => exact Agree.error e
    | ok c2 =>
      simp only [Except.map, ok_bind]
      rw [calcHopBetween_units hk]
      cases c2.calcHopBetween mem with
      | error e => exact Agree.error e
      | ok c3 =>
        simp only [Except.map, ok_bind]
        rw [calcEscape_units hk]
        cases c3.calcEscape mem with
        | error e => exact Agree.error e
        | ok c4 =>
          simp only [Except.map, ok_bind]
          rw [calcInternalTau_units hk, keys_units]
          refine Agree.bind (restoreVisits_units freqs freqs' hf _ _ _ ⟨[], rfl, rfl⟩) ?_
          rintro a _ ⟨sv', hsv', rfl⟩
          rw [calcInternalDwell_units hk]
          refine Agree.map fun b hb => ⟨sv', ?_, rfl⟩
          rw [hsv', calcInternalDwell_visits mem a b hb]

include hk in
theorem update_units (env : Env K) (mem : Addr → K) (c c' : Cluster K) (h : SameCluster k c c') :
    AgreeS (fun _ _ => True) (SameCluster k) (c.update env mem) (c'.update env (rates k mem)) := by
  unfold Cluster.update
  have hkeys : c'.siteVisits.keys = c.siteVisits.keys := by obtain ⟨sv, hsv, rfl⟩ := h; exact hsv
  rw [hkeys]
  have := visitFreqsLoop_units hk c.siteVisits.keys c c' [] [] h rfl
  generalize c.visitFreqsLoop [] c.siteVisits.keys = x at this ⊢
  generalize c'.visitFreqsLoop [] c.siteVisits.keys = y at this ⊢
  obtain ⟨r, s⟩ := x
  obtain ⟨r', s'⟩ := y
  rcases this with ⟨a, b, h1, h2, hab, h⟩ | ⟨e, h1, h2, h⟩ | h | h
  · simp only at h1 h2 h
    subst h1 h2
    simp only
    rcases rebuild_units hk env mem a b hab s s' h with ⟨x, y, e1, e2, h'⟩ | ⟨e, e1, e2⟩ | h' | h'
    · rw [e1, e2]; exact AgreeS.ok trivial h'
    · rw [e1, e2]; exact AgreeS.error h
    · rw [h']; exact AgreeS.badL rfl
    · rw [h']; exact AgreeS.badR rfl
  · simp only at h1 h2 h
    subst h1 h2
    exact AgreeS.error h
  · have : r = _ := h
    subst this
    exact AgreeS.badL rfl
  · have : r' = _ := h
    subst this
    exact AgreeS.badR rfl

include hk in
theorem migrateLoop_units (tid : Int) : ∀ (l : List Int) (c c' : Cluster K) (acc acc' : IMap Int), SameCluster k c c' →
    acc'.keys = acc.keys →
    AgreeS (fun a b => IMap.keys b = IMap.keys a) (SameCluster k) (Cluster.migrateLoop tid c acc l)
      (Cluster.migrateLoop tid c' acc' l) := by
  intro l
  induction l with
  | nil => intro c c' acc acc' h ha; exact AgreeS.ok ha h
  | cons i l ih =>
    intro c c' acc acc' h ha
    unfold Cluster.migrateLoop
    have h0 : SameCluster k { c with sites := c.sites.set i { c.siteAt i with clusterId := tid } }
        { c' with sites := c'.sites.set i { c'.siteAt i with clusterId := tid } } := by
      obtain ⟨sv, hsv, rfl⟩ := h
      refine ⟨sv, hsv, ?_⟩
      rw [siteAt_units]
      have e := set_mapVal (site k) c.sites i { c.siteAt i with clusterId := tid }
      unfold cluster
      simp only
      rw [← e]
      rfl
    simp only
    generalize ({ c with sites := c.sites.set i { c.siteAt i with clusterId := tid } } : Cluster K) = d at h0 ⊢
    generalize ({ c' with sites := c'.sites.set i { c'.siteAt i with clusterId := tid } } : Cluster K) = d' at h0 ⊢
    have := getVisitFrequency_units hk d d' h0 i
    generalize d.getVisitFrequency i = x at this ⊢
    generalize d'.getVisitFrequency i = y at this ⊢
    obtain ⟨r, s⟩ := x
    obtain ⟨r', s'⟩ := y
    rcases this with ⟨a, b, h1, h2, _, h⟩ | ⟨e, h1, h2, h⟩ | h | h
    · simp only at h1 h2 h
      subst h1 h2
      exact ih _ _ _ _ h (keys_set_of_keys ha _ _ _)
    · simp only at h1 h2 h
      subst h1 h2
      exact AgreeS.error h
    · have : r = _ := h
      subst this
      exact AgreeS.badL rfl
    · have : r' = _ := h
      subst this
      exact AgreeS.badR rfl

theorem addBackVisits_units : ∀ (l l' : List (Int × Int)) (c c' : Cluster K), SameCluster k c c' →
    IMap.keys l' = IMap.keys l → Agree (SameCluster k) (c.addBackVisits l) (c'.addBackVisits l') := by
  intro l
  induction l with
  | nil =>
    intro l' c c' h hl
    cases l' with
    | nil => exact Agree.ok h
    | cons a l' => simp [IMap.keys] at hl
  | cons a l ih =>
    intro l' c c' h hl
    cases l' with
    | nil => simp [IMap.keys] at hl
    | cons a' l' =>
      obtain ⟨i, n⟩ := a
      obtain ⟨i', n'⟩ := a'
      have h1 : i' = i := by simp [IMap.keys] at hl; exact hl.1
      have h2 : IMap.keys l' = IMap.keys l := by simp [IMap.keys] at hl; exact hl.2
      subst h1
      unfold Cluster.addBackVisits
      exact Agree.bind (setVisitFrequency_units _ _ h _ _ _) fun a b h => ih _ _ _ h h2

theorem insertAll_units (l m : IMap (Site K)) : (l.mapVal fun _ => site k).foldl Cluster.insertIfNew (m.mapVal fun _ => site k) =
    (l.foldl Cluster.insertIfNew m).mapVal fun _ => site k := by
  induction l generalizing m with
  | nil => rfl
  | cons a l ih =>
    show List.foldl _ (Cluster.insertIfNew (m.mapVal fun _ => site k) (a.1, site k a.2)) (IMap.mapVal (fun _ => site k) l) =
      IMap.mapVal _ (List.foldl _ (Cluster.insertIfNew m a) l)
    rw [← ih]
    congr 1
    unfold Cluster.insertIfNew
    rw [has_mapVal]
    simp only
    split
    · rfl
    · exact set_mapVal (site k) m a.1 a.2

include hk in
theorem migrate_units (env : Env K) (mem : Addr → K) (c c' src src' : Cluster K) (h : SameCluster k c c')
    (hs : SameCluster k src src') :
    AgreeS (fun _ _ => True) (fun s t => SameCluster k s.1 t.1 ∧ SameCluster k s.2 t.2)
      (c.migrateSitesFrom env mem src) (c'.migrateSitesFrom env (rates k mem) src') := by
  unfold Cluster.migrateSitesFrom
  have hid : c'.id = c.id := by obtain ⟨sv, hsv, rfl⟩ := h; rfl
  have hkeys : src'.sites.keys = src.sites.keys := by obtain ⟨sv, hsv, rfl⟩ := hs; exact keys_units sv src
  have e0 : Cluster.migrateLoop c'.id src' [] src'.sites.keys = Cluster.migrateLoop c.id src' [] src.sites.keys := by
    rw [hid, hkeys]
  rw [e0]
  have := migrateLoop_units hk c.id src.sites.keys src src' [] [] hs rfl
  generalize Cluster.migrateLoop c.id src [] src.sites.keys = x at this ⊢
  generalize Cluster.migrateLoop c.id src' [] src.sites.keys = y at this ⊢
  obtain ⟨r, s⟩ := x
  obtain ⟨r', s'⟩ := y
  rcases this with ⟨a, b, h1, h2, hab, hs⟩ | ⟨e, h1, h2, hs⟩ | hs | hs
  · simp only at h1 h2 hs
    subst h1 h2
    simp only
    have h0 : SameCluster k { c with sites := s.sites.foldl Cluster.insertIfNew c.sites }
        { c' with sites := s'.sites.foldl Cluster.insertIfNew c'.sites } := by
      obtain ⟨sv, hsv, rfl⟩ := h
      obtain ⟨sv', hsv', rfl⟩ := hs
      refine ⟨sv, hsv, ?_⟩
      rw [sites_units, sites_units, insertAll_units]
      rfl
    have he : SameCluster k s.emptied s'.emptied := by
      obtain ⟨sv', hsv', rfl⟩ := hs
      exact ⟨[], rfl, rfl⟩
    generalize ({ c with sites := s.sites.foldl Cluster.insertIfNew c.sites } : Cluster K) = d at h0 ⊢
    generalize ({ c' with sites := s'.sites.foldl Cluster.insertIfNew c'.sites } : Cluster K) = d' at h0 ⊢
    have := update_units hk env mem d d' h0
    generalize d.update env mem = x at this ⊢
    generalize d'.update env (rates k mem) = y at this ⊢
    obtain ⟨r, d⟩ := x
    obtain ⟨r', d'⟩ := y
    rcases this with ⟨_, _, h1, h2, _, h⟩ | ⟨e, h1, h2, h⟩ | h | h
    · simp only at h1 h2 h
      subst h1 h2
      simp only
      rcases addBackVisits_units a b d d' h hab with ⟨x, y, e1, e2, h'⟩ | ⟨e, e1, e2⟩ | h' | h'
      · rw [e1, e2]; exact AgreeS.ok trivial ⟨h', he⟩
      · rw [e1, e2]; exact AgreeS.error ⟨h, he⟩
      · rw [h']; exact AgreeS.badL rfl
      · rw [h']; exact AgreeS.badR rfl
    · simp only at h1 h2 h
      subst h1 h2
      exact AgreeS.error ⟨h, he⟩
    · have : r = _ := h
      subst this
      exact AgreeS.badL rfl
    · have : r' = _ := h
      subst this
      exact AgreeS.badR rfl
  · simp only at h1 h2 hs
    subst h1 h2
    exact AgreeS.error ⟨h, hs⟩
  · have : r = _ := hs
    subst this
    exact AgreeS.badL rfl
  · have : r' = _ := hs
    subst this
    exact AgreeS.badR rfl

/-! ## The other calls on a cluster -/

theorem chkStep {α β : Type} (P : α → β → Prop) (n : Int) {f : Int → Except Fault α} {g : Int → Except Fault β}
    (h : ∀ m, Agree P (f m) (g m)) : Agree P (chk n >>= f) (chk n >>= g) := by
  cases chk n with
  | error e => exact Agree.error e
  | ok m => exact h m

theorem occupySite_units (c c' : Cluster K) (h : SameCluster k c c') (i : Int) :
    Agree (SameCluster k) (c.occupySite i) (c'.occupySite i) := by
  obtain ⟨sv, hsv, rfl⟩ := h
  unfold Cluster.occupySite
  have hh : (cluster k sv c).siteVisits.has i = c.siteVisits.has i := has_of_keys hsv i
  rw [hh]
  split
  · refine chkStep _ (c.visits + 1) fun v => Agree.ok ⟨sv, hsv, ?_⟩
    rw [siteAt_units]
    have e := set_mapVal (site k) c.sites i (c.siteAt i).setToOccupiedStatus
    unfold cluster
    simp only
    rw [← e]
    rfl
  · exact Agree.error _

theorem isOccupiedSite_units (c c' : Cluster K) (h : SameCluster k c c') (i : Int) :
    c'.isOccupiedSite i = c.isOccupiedSite i := by
  obtain ⟨sv, hsv, rfl⟩ := h
  unfold Cluster.isOccupiedSite
  rw [sites_units, get?_mapVal]
  cases c.sites.get? i <;> rfl

theorem site_vacate_units (s : Site K) : (site k s).vacate = s.vacate.map (site k) := by
  unfold Site.vacate
  show (chk (s.occupied - 1) >>= _) = _
  cases chk (s.occupied - 1) <;> rfl

theorem vacateSite_units (c c' : Cluster K) (h : SameCluster k c c') (i : Int) :
    Agree (SameCluster k) (c.vacateSite i) (c'.vacateSite i) := by
  obtain ⟨sv, hsv, rfl⟩ := h
  unfold Cluster.vacateSite
  rw [siteAt_units, site_vacate_units]
  cases (c.siteAt i).vacate with
  | error e => exact Agree.error e
  | ok s =>
    refine chkStep _ (c.occupied - 1) fun o => Agree.ok ⟨sv, hsv, ?_⟩
    have e := set_mapVal (site k) c.sites i s
    unfold cluster
    simp only
    rw [← e]

theorem occupy_units (c c' : Cluster K) (h : SameCluster k c c') : Agree (SameCluster k) c.occupy c'.occupy := by
  obtain ⟨sv, hsv, rfl⟩ := h
  unfold Cluster.occupy
  exact chkStep _ (c.occupied + 1) fun o => chkStep _ (c.visits + 1) fun v => Agree.ok ⟨sv, hsv, rfl⟩

theorem addSites_units : ∀ (l : List (Site K)) (c c' : Cluster K), SameCluster k c c' →
    Agree (SameCluster k) (c.addSites l) (c'.addSites (l.map (site k))) := by
  intro l
  induction l with
  | nil => intro c c' h; exact Agree.ok h
  | cons s l ih =>
    intro c c' h
    rw [List.map_cons]
    unfold Cluster.addSites
    refine Agree.bind ?_ fun a b h => ih a b h
    obtain ⟨sv, hsv, rfl⟩ := h
    unfold Cluster.addSite
    rw [sites_units, has_mapVal]
    show Agree _ (if c.sites.has s.id then _ else _) (if c.sites.has s.id then _ else _)
    split
    · exact Agree.error _
    · refine Agree.ok ⟨sv, hsv, ?_⟩
      have e := set_mapVal (site k) c.sites s.id { s with clusterId := c.id }
      unfold cluster
      simp only
      rw [← e]
      rfl

include hk in
theorem getDwellTime_units (c c' : Cluster K) (h : SameCluster k c c') (wid : Int) (e : K) :
    Agree (fun a b => b.1 = k * a.1 ∧ SameCluster k a.2 b.2) (c.getDwellTime wid e) (c'.getDwellTime wid e) := by
  obtain ⟨sv, hsv, rfl⟩ := h
  unfold Cluster.getDwellTime
  have h1 : (cluster k sv c).tau = c.tau.map (k * ·) := rfl
  have h2 : (cluster k sv c).timeInc = c.timeInc.map (k * ·) := rfl
  have h3 : (cluster k sv c).remaining = times k c.remaining := rfl
  rw [h1, h2, h3]
  cases c.tau with
  | none => exact Agree.error _
  | some t =>
    cases c.timeInc with
    | none => exact Agree.error _
    | some dt =>
      simp only [Option.map]
      have hd : ((times k c.remaining).get? wid).getD (e * (k * t)) = k * (c.remaining.get? wid).getD (e * t) := by
        unfold times
        rw [get?_mapVal]
        cases c.remaining.get? wid with
        | none => simp only [Option.map, Option.getD]; rw [mul_left_comm]
        | some d => rfl
      rw [hd]
      generalize (c.remaining.get? wid).getD (e * t) = d
      have hset : (times k c.remaining).set wid (k * d - k * dt) = times k (c.remaining.set wid (d - dt)) := by
        rw [← mul_sub]; exact set_mapVal (k * ·) c.remaining wid (d - dt)
      rw [hset]
      have g1 : k * d > k * dt ↔ d > dt := by simp only [gt_iff_lt]; exact mul_lt_mul_iff_right₀ hk
      have g2 : k * d > 0 ↔ d > 0 := by simp only [gt_iff_lt]; exact mul_pos_iff_of_pos_left hk
      by_cases h4 : d > dt
      · rw [if_pos h4, if_pos (g1.2 h4)]
        exact Agree.ok ⟨rfl, sv, hsv, rfl⟩
      · rw [if_neg h4, if_neg (fun h => h4 (g1.1 h))]
        by_cases h5 : d > 0
        · rw [if_pos h5, if_pos (g2.2 h5)]
          exact Agree.ok ⟨rfl, sv, hsv, rfl⟩
        · rw [if_neg h5, if_neg (fun h => h5 (g2.1 h))]
          exact Agree.error _

include hk in
theorem pick_units (c c' : Cluster K) (h : SameCluster k c c') (wid : Int) (u : K) :
    Agree (fun a b => b.1 = a.1 ∧ SameCluster k a.2 b.2) (c.pickNewSiteId wid u) (c'.pickNewSiteId wid u) := by
  obtain ⟨sv, hsv, rfl⟩ := h
  unfold Cluster.pickNewSiteId
  have h3 : (cluster k sv c).remaining.get? wid = (c.remaining.get? wid).map (k * ·) := by
    show IMap.get? (IMap.mapVal (fun _ t => k * t) c.remaining) wid = _
    rw [get?_mapVal]
  rw [h3]
  cases c.remaining.get? wid with
  | none => exact Agree.error _
  | some r =>
    simp only [Option.map]
    have g2 : k * r > 0 ↔ r > 0 := by simp only [gt_iff_lt]; exact mul_pos_iff_of_pos_left hk
    by_cases h5 : r > 0
    · rw [if_pos h5, if_pos (g2.2 h5)]
      exact Agree.ok ⟨rfl, sv, hsv, rfl⟩
    · rw [if_neg h5, if_neg (fun h => h5 (g2.1 h))]
      refine Agree.ok ⟨rfl, sv, hsv, ?_⟩
      have e := erase_mapVal (k * ·) c.remaining wid
      unfold cluster times
      simp only
      rw [← e]

theorem setResolution_units (c c' : Cluster K) (h : SameCluster k c c') (r : K) :
    Agree (SameCluster k) (c.setResolution r) (c'.setResolution r) := by
  obtain ⟨sv, hsv, rfl⟩ := h
  unfold Cluster.setResolution
  split
  · refine Agree.ok ⟨sv, hsv, ?_⟩
    unfold cluster
    simp only [Option.map_map]
    congr 2
    funext t
    simp [mul_div_assoc]
  · exact Agree.error _

end Mythical.Units
