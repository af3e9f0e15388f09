import Verif.Spec.ClusterOrder
import Verif.Lemmas.MapSum
import Mathlib.Data.List.Perm.Basic

/-! # Maps in another order; loops over lists in another order -/

set_option linter.unusedSectionVars false

namespace Mythical
open OrderSpec

namespace OrderSpec.SameMap
variable {V W : Type} {m m' m'' : IMap V}

theorem refl (h : m.WF) : SameMap m m := ⟨h, .refl _⟩

theorem wf' (h : SameMap m m') : m'.WF := (h.perm.map Prod.fst).nodup_iff.1 h.wf

theorem symm (h : SameMap m m') : SameMap m' m := ⟨h.wf', h.perm.symm⟩

theorem trans (h : SameMap m m') (h2 : SameMap m' m'') : SameMap m m'' := ⟨h.wf, h.perm.trans h2.perm⟩

theorem get? (h : SameMap m m') (k : Int) : m'.get? k = m.get? k := (IMap.get?_of_perm h.wf h.perm k).symm

theorem of_get? (h : m.WF) (h' : m'.WF) (e : ∀ k, m.get? k = m'.get? k) : SameMap m m' :=
  ⟨h, IMap.perm_of_get? h h' e⟩

theorem has (h : SameMap m m') (k : Int) : m'.has k = m.has k := by unfold IMap.has; rw [h.get?]

theorem at0 {K : Type} [Field K] {m m' : IMap K} (h : SameMap m m') (k : Int) : m'.at0 k = m.at0 k := by
  unfold IMap.at0; rw [h.get?]

theorem keys (h : SameMap m m') : m.keys.Perm m'.keys := h.perm.map _

theorem length (h : SameMap m m') : List.length m' = List.length m := h.perm.length_eq.symm

theorem nil_iff (h : SameMap m m') : m' = [] ↔ m = [] := by
  rw [← List.length_eq_zero_iff, ← List.length_eq_zero_iff, h.length]

theorem nil : SameMap ([] : IMap V) [] := ⟨List.nodup_nil, .refl _⟩

theorem set (h : SameMap m m') (k : Int) (v : V) : SameMap (m.set k v) (m'.set k v) :=
  of_get? (h.wf.set k v) (h.wf'.set k v) fun j => by rw [IMap.get?_set, IMap.get?_set, h.get?]

theorem set_comm (h : m.WF) {j k : Int} (v w : V) (hjk : j = k → v = w) :
    SameMap ((m.set j v).set k w) ((m.set k w).set j v) :=
  of_get? ((h.set _ _).set _ _) ((h.set _ _).set _ _) fun i => by
    simp only [IMap.get?_set]
    split <;> split <;> simp_all

theorem erase (h : SameMap m m') (k : Int) : SameMap (m.erase k) (m'.erase k) :=
  of_get? (h.wf.erase k) (h.wf'.erase k) fun j => by rw [IMap.get?_erase h.wf, IMap.get?_erase h.wf', h.get?]

theorem map (h : SameMap m m') (f : Int × V → W) :
    SameMap (m.map fun kv => (kv.1, f kv)) (m'.map fun kv => (kv.1, f kv)) :=
  ⟨IMap.wf_map h.wf f, h.perm.map _⟩

theorem filter (h : SameMap m m') (p : Int × V → Bool) : SameMap (m.filter p) (m'.filter p) :=
  ⟨List.Nodup.sublist (List.filter_sublist.map Prod.fst) h.wf, h.perm.filter p⟩

theorem foldl_set {m0 m0' : IMap W} (h : SameMap m m') (f : Int × V → W) (h0 : SameMap m0 m0') :
    SameMap (m.foldl (fun a x => IMap.set a x.1 (f x)) m0) (m'.foldl (fun a x => IMap.set a x.1 (f x)) m0') :=
  of_get? (IMap.wf_foldl_set _ _ _ h0.wf) (IMap.wf_foldl_set _ _ _ h0.wf') fun k => by
    rw [IMap.get?_foldl_set h.wf, IMap.get?_foldl_set h.wf', h.get?, h0.get?]

theorem sum {K : Type} [Field K] (h : SameMap m m') (f : Int × V → K) :
    m'.foldl (fun t x => t + f x) 0 = m.foldl (fun t x => t + f x) 0 := by
  rw [IMap.foldl_add_start, IMap.foldl_add_start, ((h.perm.map f).sum_eq)]

theorem sumVals {K : Type} [Field K] {m m' : IMap K} (h : SameMap m m') : m'.sumVals = m.sumVals := h.sum fun x => x.2

end OrderSpec.SameMap

/-! ## Results that follow each other -/

/-- If the first call succeeds, so does the second, with a related result. -/
def Follows {α β : Type} (R : α → β → Prop) (x : Except Fault α) (y : Except Fault β) : Prop :=
  ∀ a, x = .ok a → ∃ b, y = .ok b ∧ R a b

namespace Follows
variable {α β α' β' : Type} {R : α → β → Prop} {S : α' → β' → Prop}

theorem ok {a : α} {b : β} (h : R a b) : Follows R (.ok a) (.ok b) := fun _ e => ⟨b, rfl, by cases e; exact h⟩

theorem error {f : Fault} {y : Except Fault β} : Follows R (.error f) y := fun _ h => nomatch h

theorem bind {x : Except Fault α} {y : Except Fault β} {f : α → Except Fault α'} {g : β → Except Fault β'}
    (h : Follows R x y) (hf : ∀ a b, R a b → Follows S (f a) (g b)) : Follows S (x >>= f) (y >>= g) := by
  intro a ha
  obtain ⟨a0, h0, h1⟩ := bind_eq_ok.1 ha
  obtain ⟨b0, h2, h3⟩ := h a0 h0
  obtain ⟨b, h4, h5⟩ := hf a0 b0 h3 a h1
  exact ⟨b, bind_eq_ok.2 ⟨b0, h2, h4⟩, h5⟩

theorem of_eq {x : Except Fault α} {T : α → α → Prop} (hT : ∀ a, x = .ok a → T a a) : Follows T x x :=
  fun a h => ⟨a, h, hT a h⟩

end Follows

theorem foldlM_follows {α β γ : Type} {R : β → γ → Prop} {f : β → α → Except Fault β} {g : γ → α → Except Fault γ}
    (hf : ∀ b b' x, R b b' → Follows R (f b x) (g b' x)) (l : List α) (b : β) (b' : γ) (h : R b b') :
    Follows R (l.foldlM f b) (l.foldlM g b') := by
  induction l generalizing b b' with
  | nil => exact .ok h
  | cons x l ih =>
    rw [List.foldlM_cons, List.foldlM_cons]
    exact (hf b b' x h).bind ih

/-- A loop that may fail, over the same elements in another order. The steps respect `R` and commute up to `R`. -/
theorem foldlM_perm {α β : Type} {R : β → β → Prop} (hsymm : ∀ a b, R a b → R b a)
    (htrans : ∀ a b c, R a b → R b c → R a c) {Q : α → α → Prop} {f : β → α → Except Fault β}
    (hf : ∀ b b' x, R b b' → Follows R (f b x) (f b' x))
    (hc : ∀ b x y, R b b → Q x y → Follows R (f b x >>= fun b1 => f b1 y) (f b y >>= fun b1 => f b1 x))
    {l l' : List α} (hp : l.Perm l') :
    (∀ x ∈ l, ∀ y ∈ l, Q x y) → ∀ b b', R b b' → Follows R (l.foldlM f b) (l'.foldlM f b') := by
  have same := foldlM_follows hf
  induction hp with
  | nil => intro _ b b' h; exact .ok h
  | cons x _ ih =>
    intro hq b b' h
    rw [List.foldlM_cons, List.foldlM_cons]
    exact (hf b b' x h).bind (ih fun y hy z hz => hq y (by simp [hy]) z (by simp [hz]))
  | swap x y l =>
    intro hq b b' h
    have e : ∀ (b : β) (x y : α), (x :: y :: l).foldlM f b = (f b x >>= fun b1 => f b1 y) >>= fun b2 => l.foldlM f b2 := by
      intro b x y
      rw [List.foldlM_cons, bind_assoc]
      congr 1
    rw [e, e]
    refine Follows.bind (R := R) ?_ (same l)
    intro b2 h2
    obtain ⟨b3, h3, r3⟩ := hc b y x (htrans _ _ _ h (hsymm _ _ h)) (hq y (by simp) x (by simp)) b2 h2
    obtain ⟨b4, h4, r4⟩ := (hf b b' x h).bind (fun _ _ r => hf _ _ y r) b3 h3
    exact ⟨b4, h4, htrans _ _ _ r3 r4⟩
  | trans p1 p2 ih1 ih2 =>
    intro hq b b' h a ha
    obtain ⟨a1, h1, r1⟩ := ih1 hq b b (htrans _ _ _ h (hsymm _ _ h)) a ha
    obtain ⟨a2, h2, r2⟩ := ih2 (fun x hx y hy => hq x (p1.mem_iff.2 hx) y (p1.mem_iff.2 hy)) b b' h a1 h1
    exact ⟨a2, h2, htrans _ _ _ r1 r2⟩

/-- The same for two loops with different steps: `R` is between the two, `E` within the first. -/
theorem foldlM_perm' {α β γ : Type} {E : β → β → Prop} {R : β → γ → Prop} (hsymm : ∀ a b, E a b → E b a)
    (htrans : ∀ a b c, E a b → E b c → E a c) (hmix : ∀ a b c, E a b → R b c → R a c) (hleft : ∀ a c, R a c → E a a)
    {Q : α → α → Prop} {f : β → α → Except Fault β} {g : γ → α → Except Fault γ}
    (hE : ∀ b b' x, E b b' → Follows E (f b x) (f b' x)) (hR : ∀ b b' x, R b b' → Follows R (f b x) (g b' x))
    (hc : ∀ b x y, E b b → Q x y → Follows E (f b x >>= fun b1 => f b1 y) (f b y >>= fun b1 => f b1 x))
    {l l' : List α} (hp : l.Perm l') (hq : ∀ x ∈ l, ∀ y ∈ l, Q x y) (b : β) (b' : γ) (h : R b b') :
    Follows R (l.foldlM f b) (l'.foldlM g b') := by
  intro a ha
  obtain ⟨a1, h1, r1⟩ := foldlM_perm hsymm htrans hE hc hp hq b b (hleft _ _ h) a ha
  obtain ⟨a2, h2, r2⟩ := foldlM_follows hR l' b b' h a1 h1
  exact ⟨a2, h2, hmix _ _ _ r1 r2⟩

theorem mapM_perm {α β : Type} {f : α → Except Fault β} {l l' : List α} (hp : l.Perm l') :
    Follows List.Perm (l.mapM f) (l'.mapM f) := by
  induction hp with
  | nil => exact .of_eq fun _ _ => .refl _
  | cons x _ ih =>
    rw [List.mapM_cons, List.mapM_cons]
    refine Follows.bind (R := Eq) (.of_eq fun _ _ => rfl) ?_
    rintro y _ rfl
    exact ih.bind fun a b h => .ok (h.cons y)
  | swap x y l =>
    intro r h
    simp only [List.mapM_cons, bind_eq_ok] at h ⊢
    obtain ⟨a, ha, t, ⟨b, hb, u, hu, ht⟩, hr⟩ := h
    cases ht
    cases hr
    exact ⟨b :: a :: u, ⟨b, hb, a :: u, ⟨a, ha, u, hu, rfl⟩, rfl⟩, .swap _ _ _⟩
  | trans _ _ ih1 ih2 =>
    intro r h
    obtain ⟨r1, h1, p1⟩ := ih1 r h
    obtain ⟨r2, h2, p2⟩ := ih2 r1 h1
    exact ⟨r2, h2, p1.trans p2⟩

theorem foldlM_flatMap' {α β γ : Type} (f : α → List β) (g : γ → β → Except Fault γ) (l : List α) (c : γ) :
    (l.flatMap f).foldlM g c = l.foldlM (fun c a => (f a).foldlM g c) c := by
  induction l generalizing c with
  | nil => rfl
  | cons a l ih =>
    rw [List.flatMap_cons, List.foldlM_append, List.foldlM_cons]
    congr 1
    funext c'
    exact ih c'

end Mythical
