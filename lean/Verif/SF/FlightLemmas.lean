import Verif.SF.Flight
import Verif.SF.FlightSpec

/-!
# The loops as recursions over the list of throttles
-/

namespace Kep3.SF

open Kep3 SFSpec

theorem triples_length {F : Type} (n : ℕ) : ∀ t : List F, t.length = 3 * n → (triples t).length = n := by
  induction n with
  | zero => intro t h; have : t = [] := List.length_eq_zero_iff.1 (by omega); subst this; rfl
  | succ n ih =>
    intro t h
    match t, h with
    | x :: y :: z :: r, h =>
      simp only [List.length_cons] at h
      simp only [triples, List.length_cons]
      rw [ih r (by omega)]
    | [], h => simp at h
    | [_], h => simp at h; omega
    | [_, _], h => simp at h; omega

theorem triple_eq {F : Type} (n : ℕ) : ∀ (t : List F), t.length = 3 * n → ∀ i (u : V3 F),
    (triples t)[i]? = some u → triple t (3 * i) (3 * i + 1) (3 * i + 2) = .ok u := by
  induction n with
  | zero =>
    intro t h i u hu
    have : t = [] := List.length_eq_zero_iff.1 (by omega)
    subst this; simp [triples] at hu
  | succ n ih =>
    intro t h i u hu
    match t, h with
    | x :: y :: z :: r, h =>
      simp only [List.length_cons] at h
      simp only [triples] at hu
      cases i with
      | zero => simp at hu; subst hu; rfl
      | succ i =>
        simp only [List.getElem?_cons_succ] at hu
        have := ih r (by omega) i u hu
        unfold triple at this ⊢
        rw [show 3 * (i + 1) = 3 * i + 3 by ring, show 3 * i + 3 + 1 = 3 * i + 1 + 3 by ring,
          show 3 * i + 3 + 2 = 3 * i + 2 + 3 by ring]
        exact this
    | [], h => simp at h
    | [_], h => simp at h; omega
    | [_, _], h => simp at h; omega

/-- The loop of a pass over a list of throttles: impulse, then a whole segment of coasting, only half
a segment after the last impulse. -/
noncomputable def arcs {S : Type} (M : Machine S) (dt : ℝ) : List (V3 ℝ) → S → S
  | [], s => s
  | [u], s => M.coast (M.kick s u) (dt / 2)
  | u :: v :: us, s => arcs M dt (v :: us) (M.coast (M.kick s u) dt)

/-- A whole pass. -/
noncomputable def pass {S : Type} (M : Machine S) (dt : ℝ) (us : List (V3 ℝ)) (s : S) : S :=
  match us with
  | [] => s
  | _ => arcs M dt us (M.coast s (dt / 2))

theorem foldlM_arcs {S : Type} (M : Machine S) (dt : ℝ) (get : ℕ → Res (V3 ℝ)) (N : ℕ) :
    ∀ (us : List (V3 ℝ)) (k : ℕ) (s : S), k + us.length = N →
    (∀ i u, us[i]? = some u → get (k + i) = .ok u) →
    (List.range' k us.length).foldlM (fun s i => do
      let u ← get i
      Res.ok (M.coast (M.kick s u) (if i = N - 1 then dt / 2 else dt))) s = .ok (arcs M dt us s) := by
  intro us
  induction us with
  | nil => intros; rfl
  | cons u us ih =>
    intro k s hN hget
    have h0 : get k = .ok u := by simpa using hget 0 u rfl
    rw [List.length_cons, List.range'_succ, List.foldlM_cons, h0]
    simp only [Res.ok_bind]
    have ih' := ih (k + 1) (M.coast (M.kick s u) (if k = N - 1 then dt / 2 else dt))
      (by simp only [List.length_cons] at hN; omega)
      (by intro i v hv; have := hget (i + 1) v (by simpa using hv); rwa [← Nat.add_assoc, Nat.add_right_comm] at this)
    rw [ih']
    cases us with
    | nil =>
      simp only [List.length_cons, List.length_nil] at hN
      rw [if_pos (by omega)]; rfl
    | cons v vs =>
      simp only [List.length_cons] at hN
      rw [if_neg (by omega)]; rfl

theorem fwdPass_eq {S : Type} (M : Machine S) (s : S) (t : List ℝ) (n nf : ℕ) (dt : ℝ)
    (ht : t.length = 3 * n) (hf : nf ≤ n) :
    fwdPass M s t nf dt = .ok (pass M dt ((triples t).take nf) s) := by
  have hlen : ((triples t).take nf).length = nf := by
    rw [List.length_take, triples_length n t ht]; omega
  unfold fwdPass
  have hfold := foldlM_arcs M dt (fun i => triple t (3 * i) (3 * i + 1) (3 * i + 2)) nf
    ((triples t).take nf) 0 (if 0 < nf then M.coast s (dt / 2) else s) (by omega) (by
      intro i u hu
      rw [Nat.zero_add]
      refine triple_eq n t ht i u ?_
      rw [List.getElem?_take] at hu
      split at hu
      · exact hu
      · cases hu)
  rw [hlen, ← List.range_eq_range'] at hfold
  refine hfold.trans ?_
  congr 1
  cases hus : (triples t).take nf with
  | nil =>
    have : nf = 0 := by rw [← hlen, hus]; rfl
    subst this; rfl
  | cons u us =>
    have : 0 < nf := by rw [← hlen, hus]; simp
    rw [if_pos this]; rfl

theorem bckPass_eq {S : Type} (M : Machine S) (s : S) (t : List ℝ) (n nb : ℕ) (dt : ℝ)
    (ht : t.length = 3 * n) (hb : nb ≤ n) :
    bckPass M s t nb dt = .ok (pass M (-dt) ((triples t).drop (n - nb)).reverse s) := by
  have hL := triples_length n t ht
  have hlen : ((triples t).drop (n - nb)).reverse.length = nb := by
    rw [List.length_reverse, List.length_drop, hL]; omega
  unfold bckPass
  have hfold := foldlM_arcs M (-dt) (fun i => if 3 * i + 3 ≤ t.length then
        triple t (t.length - 1 - 3 * i - 2) (t.length - 1 - 3 * i - 1) (t.length - 1 - 3 * i)
      else .ub) nb
    ((triples t).drop (n - nb)).reverse 0 (if 0 < nb then M.coast s (-dt / 2) else s) (by omega) (by
      intro i u hu
      rw [Nat.zero_add]
      have hi : i < nb := by
        have h := (List.getElem?_eq_some_iff.1 hu).1
        omega
      rw [if_pos (by omega)]
      rw [List.getElem?_reverse (by rw [List.length_drop, hL]; omega), List.getElem?_drop,
        List.length_drop, hL] at hu
      have := triple_eq n t ht _ u hu
      rw [show t.length - 1 - 3 * i - 2 = 3 * (n - nb + (n - (n - nb) - 1 - i)) by omega,
        show t.length - 1 - 3 * i - 1 = 3 * (n - nb + (n - (n - nb) - 1 - i)) + 1 by omega,
        show t.length - 1 - 3 * i = 3 * (n - nb + (n - (n - nb) - 1 - i)) + 2 by omega]
      exact this)
  rw [hlen, ← List.range_eq_range'] at hfold
  refine hfold.trans ?_
  congr 1
  cases hus : ((triples t).drop (n - nb)).reverse with
  | nil =>
    have : nb = 0 := by rw [← hlen, hus]; rfl
    subst this; rfl
  | cons u us =>
    have : 0 < nb := by rw [← hlen, hus]; simp
    rw [if_pos this]; rfl

end Kep3.SF
