import Verif.Model.Cluster
import Verif.Lemmas.IMap
import Verif.Lemmas.Except
import Verif.Lemmas.Site
import Mathlib.Algebra.BigOperators.Group.Finset.Basic
import Mathlib.Algebra.BigOperators.Ring.Finset

/-! # Sums over maps, monadic folds -/

set_option linter.unusedSectionVars false

namespace Mythical
variable {K : Type} [Field K]

namespace IMap

theorem foldl_add_start {α : Type} (f : α → K) (l : List α) (a : K) :
    l.foldl (fun t x => t + f x) a = a + (l.map f).sum := by
  induction l generalizing a with
  | nil => simp
  | cons x l ih => simp [ih, add_assoc]

theorem sumVals_eq (m : IMap K) : m.sumVals = (m.map Prod.snd).sum := by
  unfold sumVals; rw [foldl_add_start (fun kv : Int × K => kv.2)]; simp

theorem at0_def (m : IMap K) (k : Int) : m.at0 k = (m.get? k).getD 0 := rfl

@[simp] theorem at0_nil (k : Int) : IMap.at0 ([] : IMap K) k = 0 := rfl

theorem at0_of_get? {m : IMap K} {k : Int} {v : K} (h : m.get? k = some v) : m.at0 k = v := by
  unfold at0; rw [h]; rfl

theorem at0_of_mem {m : IMap K} (hm : m.WF) {k : Int} {v : K} (h : (k, v) ∈ m) : m.at0 k = v :=
  at0_of_get? (get?_of_mem hm h)

theorem at0_of_not_mem {m : IMap K} {k : Int} (h : k ∉ m.keys) : m.at0 k = 0 := by
  unfold at0; rw [get?_eq_none_iff.2 h]; rfl

theorem get?_of_at0 {m : IMap K} {k : Int} (h : k ∈ m.keys) : m.get? k = some (m.at0 k) := by
  obtain ⟨v, hv⟩ := mem_keys_iff_get?.1 h
  rw [hv, at0_of_get? hv]

theorem at0_set (m : IMap K) (k : Int) (v : K) (j : Int) : (m.set k v).at0 j = if k = j then v else m.at0 j := by
  unfold at0; rw [get?_set]; split <;> rfl

/-- A sum over the entries of a map is a sum over its keys. -/
theorem sum_map_keys {V : Type} {m : IMap V} (hm : m.WF) (f : Int → V → K) (g : Int → K)
    (h : ∀ k v, (k, v) ∈ m → f k v = g k) : (m.map fun kv => f kv.1 kv.2).sum = ∑ k ∈ m.keys.toFinset, g k := by
  have : (m.map fun kv => f kv.1 kv.2) = m.keys.map g := by
    unfold keys
    rw [List.map_map]
    apply List.map_congr_left
    rintro ⟨k, v⟩ hkv
    exact h k v hkv
  rw [this]; exact (List.sum_toFinset g hm).symm

theorem sumVals_keys {m : IMap K} (hm : m.WF) : m.sumVals = ∑ k ∈ m.keys.toFinset, m.at0 k := by
  rw [sumVals_eq]
  exact sum_map_keys hm (fun _ v => v) m.at0 fun k v h => (at0_of_mem hm h).symm

/-- The entries of a map whose values depend only on the keys. -/
theorem keys_map {V W : Type} (m : IMap V) (f : Int × V → W) :
    IMap.keys (m.map fun kv => (kv.1, f kv)) = m.keys := by
  unfold keys; rw [List.map_map]; rfl

theorem wf_map {V W : Type} {m : IMap V} (hm : m.WF) (f : Int × V → W) :
    IMap.WF (m.map fun kv => (kv.1, f kv)) := by
  rw [WF_iff, keys_map]; exact hm

theorem get?_map {V W : Type} (m : IMap V) (f : Int × V → W) (k : Int) :
    IMap.get? (m.map fun kv => (kv.1, f kv)) k = (m.get? k).map fun v => f (k, v) := by
  induction m with
  | nil => rfl
  | cons x m ih =>
    obtain ⟨j, v⟩ := x
    rw [List.map_cons, get?_cons, get?_cons, ih]
    split
    · next e => subst e; rfl
    · rfl

theorem at0_map {V : Type} (m : IMap V) (f : Int × V → K) (k : Int) :
    IMap.at0 (m.map fun kv => (kv.1, f kv)) k = ((m.get? k).map fun v => f (k, v)).getD 0 := by
  unfold at0; rw [get?_map]

theorem foldl_set_map {V W : Type} (l : List (Int × V)) (f : Int × V → W) (m0 : IMap W) :
    l.foldl (fun m x => IMap.set m x.1 (f x)) m0 =
      (l.map fun x => (x.1, f x)).foldl (fun m x => IMap.set m x.1 x.2) m0 := by
  rw [List.foldl_map]

theorem get?_foldl_set {V W : Type} {l : IMap V} (hl : l.WF) (f : Int × V → W) (m0 : IMap W) (k : Int) :
    IMap.get? (l.foldl (fun m x => IMap.set m x.1 (f x)) m0) k =
      ((l.get? k).map fun v => f (k, v)).or (m0.get? k) := by
  rw [foldl_set_map, Site.foldl_set_get? _ (wf_map hl f), get?_map]

theorem keys_foldl_set {V W : Type} (l : List (Int × V)) (f : Int × V → W) (m0 : IMap W) (k : Int) :
    k ∈ IMap.keys (l.foldl (fun m x => IMap.set m x.1 (f x)) m0) ↔ k ∈ IMap.keys l ∨ k ∈ m0.keys := by
  induction l generalizing m0 with
  | nil => simp
  | cons x l ih =>
    rw [List.foldl_cons, ih, mem_keys_set, keys_cons, List.mem_cons]
    tauto

theorem wf_foldl_set {V W : Type} (l : List (Int × V)) (f : Int × V → W) (m0 : IMap W) (h : m0.WF) :
    IMap.WF (l.foldl (fun m x => IMap.set m x.1 (f x)) m0) := by
  induction l generalizing m0 with
  | nil => exact h
  | cons x l ih => exact ih _ (h.set _ _)

theorem toFinset_keys_eq {V W : Type} {m : IMap V} {m' : IMap W} (h : ∀ k, k ∈ m.keys ↔ k ∈ m'.keys) :
    m.keys.toFinset = m'.keys.toFinset := by
  ext k; simp only [List.mem_toFinset]; exact h k

/-- Two maps with the same lookups have the same entries up to order. -/
theorem perm_of_get? {V : Type} {m m' : IMap V} (hm : m.WF) (hm' : m'.WF) (h : ∀ k, m.get? k = m'.get? k) :
    List.Perm m m' := by
  have nd : ∀ {m : IMap V}, m.WF → List.Nodup m := fun hm => List.Nodup.of_map Prod.fst hm
  rw [List.perm_ext_iff_of_nodup (nd hm) (nd hm')]
  rintro ⟨k, v⟩
  rw [← get?_eq_some_iff hm, ← get?_eq_some_iff hm', h]

theorem get?_of_perm {V : Type} {m m' : IMap V} (hm : m.WF) (h : List.Perm m m') (k : Int) : m.get? k = m'.get? k := by
  have hm' : m'.WF := (h.map Prod.fst).nodup_iff.1 hm
  cases e : m'.get? k with
  | some v => rw [get?_eq_some_iff hm, h.mem_iff, ← get?_eq_some_iff hm']; exact e
  | none =>
    rw [get?_eq_none_iff] at e ⊢
    rw [mem_keys_iff] at e ⊢
    rintro ⟨v, hv⟩
    exact e ⟨v, h.mem_iff.1 hv⟩

end IMap

theorem mapM_ok {α β : Type} {f : α → Except Fault β} {g : α → β} {l : List α} (h : ∀ x ∈ l, f x = .ok (g x)) :
    l.mapM f = .ok (l.map g) := by
  induction l with
  | nil => rfl
  | cons x l ih =>
    rw [List.mapM_cons, h x (by simp), ih fun y hy => h y (by simp [hy])]
    rfl

theorem mapM_eq_ok {α β : Type} {f : α → Except Fault β} {l : List α} {r : List β} (h : l.mapM f = .ok r) :
    List.Forall₂ (fun x y => f x = .ok y) l r := by
  induction l generalizing r with
  | nil => cases h; exact .nil
  | cons x l ih =>
    rw [List.mapM_cons, bind_eq_ok] at h
    obtain ⟨y, hy, h⟩ := h
    rw [bind_eq_ok] at h
    obtain ⟨ys, hys, h⟩ := h
    cases h
    exact .cons hy (ih hys)

theorem foldlM_ok {α β : Type} {f : β → α → Except Fault β} {g : β → α → β} {l : List α}
    (h : ∀ b, ∀ x ∈ l, f b x = .ok (g b x)) (b : β) : l.foldlM f b = .ok (l.foldl g b) := by
  induction l generalizing b with
  | nil => rfl
  | cons x l ih =>
    rw [List.foldlM_cons, h b x (by simp), ok_bind, ih fun b y hy => h b y (by simp [hy])]
    rfl

end Mythical
