import Verif.Model.Basic
import Mathlib.Data.List.Nodup
import Mathlib.Data.List.Perm.Basic

/-! # Lemmas about the finite maps of the model -/

namespace Mythical
namespace IMap
variable {V W : Type _}

@[simp] theorem get?_nil (k : Int) : IMap.get? ([] : IMap V) k = none := rfl

theorem get?_cons (k' : Int) (v : V) (m : IMap V) (k : Int) :
    IMap.get? ((k', v) :: m) k = if k' = k then some v else m.get? k := rfl

@[simp] theorem keys_nil : IMap.keys ([] : IMap V) = [] := rfl
@[simp] theorem keys_cons (p : Int × V) (m : IMap V) : IMap.keys (p :: m) = p.1 :: m.keys := rfl

theorem WF_iff (m : IMap V) : m.WF ↔ m.keys.Nodup := Iff.rfl

@[simp] theorem wf_nil : IMap.WF ([] : IMap V) := by simp [WF]

theorem wf_cons {p : Int × V} {m : IMap V} : IMap.WF (p :: m) ↔ p.1 ∉ m.keys ∧ m.WF := by
  simp [WF, keys]

theorem get?_eq_none_iff {m : IMap V} {k : Int} : m.get? k = none ↔ k ∉ m.keys := by
  induction m with
  | nil => simp
  | cons p m ih =>
    obtain ⟨k', v⟩ := p
    simp only [get?_cons, keys_cons, List.mem_cons, not_or]
    split
    · next h => simp [h]
    · next h =>
      rw [ih]; constructor
      · intro h2; exact ⟨fun e => h e.symm, h2⟩
      · exact fun h2 => h2.2

theorem get?_isSome_iff {m : IMap V} {k : Int} : (m.get? k).isSome ↔ k ∈ m.keys := by
  rw [← not_iff_not, Bool.not_eq_true, Option.isSome_eq_false_iff, Option.isNone_iff_eq_none,
    get?_eq_none_iff]

theorem has_iff {m : IMap V} {k : Int} : m.has k = true ↔ k ∈ m.keys := get?_isSome_iff

theorem has_eq_false_iff {m : IMap V} {k : Int} : m.has k = false ↔ k ∉ m.keys := by
  rw [← has_iff, Bool.not_eq_true]

theorem mem_of_get? {m : IMap V} {k : Int} {v : V} (h : m.get? k = some v) : (k, v) ∈ m := by
  induction m with
  | nil => simp at h
  | cons p m ih =>
    obtain ⟨k', v'⟩ := p
    simp only [get?_cons] at h
    split at h
    · next e => simp_all
    · exact List.mem_cons_of_mem _ (ih h)

theorem mem_keys_of_mem {m : IMap V} {k : Int} {v : V} (h : (k, v) ∈ m) : k ∈ m.keys :=
  List.mem_map.2 ⟨_, h, rfl⟩

theorem mem_keys_iff {m : IMap V} {k : Int} : k ∈ m.keys ↔ ∃ v, (k, v) ∈ m := by
  simp [keys]

theorem mem_keys_iff_get? {m : IMap V} {k : Int} : k ∈ m.keys ↔ ∃ v, m.get? k = some v := by
  rw [← get?_isSome_iff, Option.isSome_iff_exists]

theorem get?_of_mem {m : IMap V} (hm : m.WF) {k : Int} {v : V} (h : (k, v) ∈ m) :
    m.get? k = some v := by
  induction m with
  | nil => simp at h
  | cons p m ih =>
    obtain ⟨k', v'⟩ := p
    rw [wf_cons] at hm
    simp only [get?_cons]
    rcases List.mem_cons.1 h with h | h
    · obtain ⟨rfl, rfl⟩ := Prod.mk.inj h; simp
    · have : k' ≠ k := fun e => hm.1 (e ▸ mem_keys_of_mem h)
      simp [this, ih hm.2 h]

theorem get?_eq_some_iff {m : IMap V} (hm : m.WF) {k : Int} {v : V} :
    m.get? k = some v ↔ (k, v) ∈ m := ⟨mem_of_get?, get?_of_mem hm⟩

theorem get?_set (m : IMap V) (k : Int) (v : V) (j : Int) :
    (m.set k v).get? j = if k = j then some v else m.get? j := by
  induction m with
  | nil => simp [set, get?_cons]
  | cons p m ih =>
    obtain ⟨k', v'⟩ := p
    simp only [set]
    split
    · next h => subst h; simp only [get?_cons]; split <;> rfl
    · next h =>
      simp only [get?_cons, ih]
      split
      · next e => subst e; simp [Ne.symm h]
      · rfl

@[simp] theorem get?_set_self (m : IMap V) (k : Int) (v : V) : (m.set k v).get? k = some v := by
  simp [get?_set]

theorem get?_set_ne (m : IMap V) {k j : Int} (v : V) (h : k ≠ j) :
    (m.set k v).get? j = m.get? j := by
  simp [get?_set, h]

theorem keys_set (m : IMap V) (k : Int) (v : V) :
    (m.set k v).keys = if k ∈ m.keys then m.keys else m.keys ++ [k] := by
  induction m with
  | nil => simp [set]
  | cons p m ih =>
    obtain ⟨k', v'⟩ := p
    simp only [set]
    split
    · next h => subst h; simp
    · next h =>
      simp only [keys_cons, ih, List.mem_cons, Ne.symm h, false_or]
      split <;> simp

theorem mem_keys_set {m : IMap V} {k : Int} {v : V} {j : Int} :
    j ∈ (m.set k v).keys ↔ j = k ∨ j ∈ m.keys := by
  rw [keys_set]; split
  · next h => constructor
              · exact Or.inr
              · rintro (rfl | h2) <;> assumption
  · simp [or_comm]

theorem keys_set_of_mem {m : IMap V} {k : Int} {v : V} (h : k ∈ m.keys) :
    (m.set k v).keys = m.keys := by simp [keys_set, h]

theorem WF.set {m : IMap V} (hm : m.WF) (k : Int) (v : V) : (m.set k v).WF := by
  rw [WF_iff, keys_set]; split
  · exact hm
  · next h => exact List.nodup_append'.2 ⟨hm, by simp, by simpa using h⟩

theorem set_of_not_mem {m : IMap V} {k : Int} {v : V} (h : k ∉ m.keys) :
    m.set k v = m ++ [(k, v)] := by
  induction m with
  | nil => rfl
  | cons p m ih =>
    obtain ⟨k', v'⟩ := p
    simp only [keys_cons, List.mem_cons, not_or] at h
    simp [IMap.set, Ne.symm h.1, ih h.2]

theorem get?_erase {m : IMap V} (hm : m.WF) (k j : Int) :
    (m.erase k).get? j = if k = j then none else m.get? j := by
  induction m with
  | nil => simp [erase]
  | cons p m ih =>
    obtain ⟨k', v'⟩ := p
    rw [wf_cons] at hm
    simp only [erase]
    split
    · next h =>
      subst h; simp only [get?_cons]
      split
      · next e => subst e; exact get?_eq_none_iff.2 hm.1
      · rfl
    · next h =>
      simp only [get?_cons, ih hm.2]
      split
      · next e => subst e; simp [Ne.symm h]
      · rfl

theorem keys_erase (m : IMap V) (k : Int) : (m.erase k).keys = m.keys.erase k := by
  induction m with
  | nil => simp [erase]
  | cons p m ih =>
    obtain ⟨k', v'⟩ := p
    simp only [erase, keys_cons, List.erase_cons]
    split
    · next h => simp [h]
    · next h => simp [h, ih]

theorem WF.erase {m : IMap V} (hm : m.WF) (k : Int) : (m.erase k).WF := by
  rw [WF_iff, keys_erase]; exact List.Nodup.erase k hm

theorem mem_keys_erase {m : IMap V} (hm : m.WF) {k j : Int} :
    j ∈ (m.erase k).keys ↔ j ≠ k ∧ j ∈ m.keys := by
  rw [keys_erase]; exact List.Nodup.mem_erase_iff hm

@[simp] theorem keys_mapVal (f : Int → V → W) (m : IMap V) : (m.mapVal f).keys = m.keys := by
  simp [keys, mapVal, Function.comp_def]

theorem WF.mapVal {m : IMap V} (hm : m.WF) (f : Int → V → W) : (m.mapVal f).WF := by
  rw [WF_iff, keys_mapVal]; exact hm

theorem get?_mapVal (f : Int → V → W) (m : IMap V) (k : Int) :
    (m.mapVal f).get? k = (m.get? k).map (f k) := by
  induction m with
  | nil => rfl
  | cons p m ih =>
    obtain ⟨k', v'⟩ := p
    show IMap.get? ((k', f k' v') :: IMap.mapVal f m) k = _
    simp only [get?_cons, ih]
    split
    · next e => subst e; rfl
    · rfl

theorem set_set (m : IMap V) (k : Int) (v w : V) : (m.set k v).set k w = m.set k w := by
  induction m with
  | nil => simp [set]
  | cons kv m ih =>
    obtain ⟨k', v'⟩ := kv
    by_cases h : k' = k
    · simp [set, h]
    · simp [set, h, ih]

end IMap
end Mythical
