import Mathlib.Data.Nat.Notation
import Verif.Mut

/-!
# Counting loops

`for (i = 0; i < n; ++i) body(i)` for a body that mutates some state and may throw.
-/

namespace Kep3

/-- `for (unsigned i = 0; i < n; ++i) body(i);` -/
def forLoop {σ : Type _} : ℕ → (ℕ → Mut σ Unit) → Mut σ Unit
  | 0, _ => pure ()
  | n + 1, body => do
    forLoop n body
    body n

/-- `if (n > 0) { ... }`. -/
def ifPos {σ : Type _} (n : ℕ) (m : Mut σ Unit) : Mut σ Unit := if 0 < n then m else pure ()

section
variable {σ : Type _} (body : ℕ → Mut σ Unit) (n : ℕ) (s : σ)

@[simp] theorem forLoop_zero : forLoop 0 body s = (.ok (), s) := rfl

theorem forLoop_succ : forLoop (n + 1) body s = (forLoop n body >>= fun _ => body n) s := rfl

/-- Loop invariant rule for a loop that always completes. -/
theorem forLoop_inv (I : ℕ → σ → Prop)
    (step : ∀ i < n, ∀ s, I i s → ∃ s', body i s = (.ok (), s') ∧ I (i + 1) s') (h0 : I 0 s) :
    ∃ s', forLoop n body s = (.ok (), s') ∧ I n s' := by
  induction n with
  | zero => exact ⟨s, rfl, h0⟩
  | succ n ih =>
    obtain ⟨s1, e1, i1⟩ := ih (fun i hi => step i (by omega))
    obtain ⟨s2, e2, i2⟩ := step n (by omega) s1 i1
    exact ⟨s2, by rw [forLoop_succ, Mut.bind_run, e1]; exact e2, i2⟩

/-- A relation between two runs of the same loop is kept, whatever the outcomes. -/
theorem forLoop_rel {τ : Type _} (body' : ℕ → Mut τ Unit) (R : σ → τ → Prop)
    (step : ∀ i < n, ∀ s t, R s t → (body i s).1 = (body' i t).1 ∧ R (body i s).2 (body' i t).2)
    (t : τ) (h0 : R s t) :
    (forLoop n body s).1 = (forLoop n body' t).1 ∧ R (forLoop n body s).2 (forLoop n body' t).2 := by
  induction n with
  | zero => exact ⟨rfl, h0⟩
  | succ n ih =>
    obtain ⟨h1, h2⟩ := ih (fun i hi => step i (by omega))
    rw [forLoop_succ, forLoop_succ, Mut.bind_run, Mut.bind_run]
    revert h1 h2
    generalize forLoop n body s = x
    generalize forLoop n body' t = y
    rcases x with ⟨x1, x2⟩; rcases y with ⟨y1, y2⟩
    intro h1 h2
    dsimp only at h1 h2
    subst h1
    cases x1 with
    | ok a => exact step n (by omega) x2 y2 h2
    | err e => exact ⟨rfl, h2⟩
    | ub => exact ⟨rfl, h2⟩

/-- A property of the state kept by every iteration is kept by the loop, whatever the outcome. -/
theorem forLoop_keeps (P : σ → Prop) (step : ∀ i s, P s → P (body i s).2) (h0 : P s) :
    P (forLoop n body s).2 := by
  induction n with
  | zero => exact h0
  | succ n ih =>
    rw [forLoop_succ, Mut.bind_run]
    revert ih
    generalize forLoop n body s = x
    rcases x with ⟨x1, x2⟩
    intro h
    cases x1 with
    | ok a => exact step n x2 h
    | err e => exact h
    | ub => exact h

end
end Kep3
