import Verif.Model.EventLoop
import Mathlib.Data.List.Perm.Basic
import Mathlib.Algebra.Order.Monoid.Unbundled.Basic

/-! # Helper lemmas for the queue -/

namespace Mythical
namespace Queue
variable {K : Type _} [LinearOrder K]

/-- times in non-decreasing order -/
def Ordered (l : List (Int × K)) : Prop := l.Pairwise fun a b => a.2 ≤ b.2

theorem insertBefore_perm (w : Int × K) (l : List (Int × K)) : (insertBefore w l).Perm (w :: l) := by
  induction l with
  | nil => simp [insertBefore]
  | cons e es ih =>
    simp only [insertBefore]; split
    · exact List.Perm.refl _
    · exact (ih.cons e).trans (List.Perm.swap _ _ _)

theorem insertBefore_ordered (w : Int × K) {l : List (Int × K)} (h : Ordered l) :
    Ordered (insertBefore w l) := by
  induction l with
  | nil => simp [insertBefore, Ordered]
  | cons e es ih =>
    rw [Ordered, List.pairwise_cons] at h
    simp only [insertBefore]; split
    · next hlt =>
      refine List.pairwise_cons.2 ⟨?_, List.pairwise_cons.2 h⟩
      intro a ha
      rcases List.mem_cons.1 ha with rfl | ha
      · exact hlt.le
      · exact hlt.le.trans (h.1 a ha)
    · next hge =>
      refine List.pairwise_cons.2 ⟨?_, ih h.2⟩
      intro a ha
      rcases List.mem_cons.1 ((insertBefore_perm w es).mem_iff.1 ha) with rfl | ha
      · exact not_lt.1 hge
      · exact h.1 a ha

/-- the queue's flag does not lie -/
def Inv (q : Queue K) : Prop := q.sorted = true → Ordered q.entries

theorem inv_init : Inv (init : Queue K) := by simp [Inv, init, Ordered]

theorem step_inv {q q' : Queue K} {o : Op K} {out} (h : q.Inv) (hs : q.step o = .ok (q', out)) :
    q'.Inv := by
  cases o with
  | add w => simp only [step, add, Except.ok.injEq, Prod.mk.injEq] at hs; rw [← hs.1]; simp [Inv]
  | sortedAdd w =>
    simp only [step, sortedAdd, Except.ok.injEq, Prod.mk.injEq] at hs; rw [← hs.1]
    exact fun hq => insertBefore_ordered w (h hq)
  | sort s =>
    simp only [step, sort, Except.ok.injEq, Prod.mk.injEq] at hs; rw [← hs.1]
    split
    · exact h
    · exact fun _ => s.ordered _
  | pop =>
    simp only [step, popCurrent] at hs
    split at hs
    · next e q1 heq =>
      split at heq
      · simp at heq
      · next e es hq =>
        simp only [Except.ok.injEq, Prod.mk.injEq] at heq hs
        rw [← hs.1, ← heq.2]
        intro hsorted
        have := h hsorted
        rw [hq, Ordered, List.pairwise_cons] at this
        exact this.2
    · simp at hs

theorem run_inv {ops : List (Op K)} : ∀ {q q' : Queue K} {outs}, q.Inv →
    q.run ops = .ok (q', outs) → q'.Inv := by
  induction ops with
  | nil => intro q q' outs h hr; simp [run] at hr; rw [← hr.1]; exact h
  | cons o os ih =>
    intro q q' outs h hr
    simp only [run] at hr
    split at hr
    · simp at hr
    · next q1 out h1 =>
      split at hr
      · simp at hr
      · next q2 outs2 h2 =>
        simp only [Except.ok.injEq, Prod.mk.injEq] at hr
        rw [← hr.1]
        exact ih (step_inv h h1) h2

omit [LinearOrder K] in
/-- `at_` for an index the deque can hold -/
theorem at_ok_iff (q : Queue K) {i : Int}
    (hi : FitsInt i) {e} :
    q.at_ i = .ok e ↔ 0 ≤ i ∧ q.entries[i.toNat]? = some e := by
  simp only [FitsInt, INT_MIN, INT_MAX] at hi
  unfold at_
  by_cases h0 : i < 0
  · have h1 : ¬ 0 ≤ i := by omega
    have h2 : (i + 18446744073709551616).toNat ≥ 9223372036854775808 := by omega
    simp [h0, h1, h2]
  · have h1 : 0 ≤ i := by omega
    have h2 : ¬ (i.toNat ≥ 9223372036854775808) := by omega
    simp only [h0, if_false, h2, h1, true_and]
    split <;> simp_all

omit [LinearOrder K] in
theorem at_error (q : Queue K) {i : Int} {f} (h : q.at_ i = .error f) : f = .outOfRange := by
  unfold at_ at h
  dsimp only at h
  split at h
  · split at h
    · simpa using h.symm
    · split at h
      · simp at h
      · simpa using h.symm
  · split at h
    · simpa using h.symm
    · split at h
      · simp at h
      · simpa using h.symm

end Queue
end Mythical
