import Verif.Model.Basic

/-! # Lemmas to take `do` blocks in `Except Fault` apart -/

namespace Mythical
variable {α β : Type _}

theorem bind_eq_ok {x : Except Fault α} {f : α → Except Fault β} {b : β} :
    (x >>= f) = .ok b ↔ ∃ a, x = .ok a ∧ f a = .ok b := by
  cases x with
  | error e => constructor
               · intro h; cases h
               · rintro ⟨_, h, _⟩; cases h
  | ok a => constructor
            · intro h; exact ⟨a, rfl, h⟩
            · rintro ⟨_, h, h2⟩; cases h; exact h2

theorem bind_eq_error {x : Except Fault α} {f : α → Except Fault β} {e : Fault} :
    (x >>= f) = .error e ↔ x = .error e ∨ ∃ a, x = .ok a ∧ f a = .error e := by
  cases x with
  | error e' =>
    constructor
    · intro h; left; cases h; rfl
    · rintro (h | ⟨_, h, _⟩)
      · cases h; rfl
      · cases h
  | ok a =>
    constructor
    · intro h; exact .inr ⟨a, rfl, h⟩
    · rintro (h | ⟨_, h, h2⟩)
      · cases h
      · cases h; exact h2

@[simp] theorem ok_bind (a : α) (f : α → Except Fault β) :
    ((Except.ok a : Except Fault α) >>= f) = f a := rfl

@[simp] theorem error_bind (e : Fault) (f : α → Except Fault β) :
    ((Except.error e : Except Fault α) >>= f) = .error e := rfl

theorem ok_inj {a b : α} : (Except.ok a : Except Fault α) = .ok b ↔ a = b := by
  constructor
  · intro h; cases h; rfl
  · rintro rfl; rfl

theorem chk_eq_ok {n m : Int} : chk n = .ok m ↔ m = n ∧ FitsInt n := by
  unfold chk; split
  · next h => rw [ok_inj]; exact ⟨fun e => ⟨e.symm, h⟩, fun e => e.1.symm⟩
  · next h => constructor
              · intro h; cases h
              · rintro ⟨_, h2⟩; exact absurd h2 h

theorem chk_ok {n : Int} (h : FitsInt n) : chk n = .ok n := by simp [chk, h]

theorem chk_eq_error {n : Int} {f : Fault} :
    chk n = .error f ↔ ¬ FitsInt n ∧ f = .ub .intOverflow := by
  unfold chk; split
  · next h => simp [h]
  · next h => constructor
              · intro h2; cases h2; exact ⟨h, rfl⟩
              · rintro ⟨_, rfl⟩; rfl

theorem fitsInt_of {n : Int} (h1 : -2147483648 ≤ n) (h2 : n ≤ 2147483647) : FitsInt n := ⟨h1, h2⟩

theorem fitsInt_iff {n : Int} : FitsInt n ↔ -2147483648 ≤ n ∧ n ≤ 2147483647 := Iff.rfl

end Mythical
