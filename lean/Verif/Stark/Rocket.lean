import Verif.Stark.Dyn
import Mathlib.Analysis.SpecialFunctions.Log.Deriv

/-!
# C65: the thrust in the Stark problem

What `stark_dyn` (src/ta/stark.cpp:42-70) does to the momentum and to the angular momentum, and the rocket equation.
-/

namespace Kep3.Stark
open Kep3 Real V3
open Kep3.HF (St)

/-- C65: the momentum of the spacecraft changes by the attraction, the thrust, and the momentum of the expelled mass. -/
theorem C65_momentum (mu veff a b : ℝ) (u : V3 ℝ) (γ : ℝ → St ℝ) (h : SolvesM (starkDyn mu veff u) a b γ) :
    ∀ t ∈ Set.Icc a b,
      HasDerivAt (fun t => (γ t).m * (γ t).rv.v.x) (-(mu * (γ t).m / norm (γ t).rv.r ^ 3) * (γ t).rv.r.x + u.x - norm u / veff * (γ t).rv.v.x) t ∧
      HasDerivAt (fun t => (γ t).m * (γ t).rv.v.y) (-(mu * (γ t).m / norm (γ t).rv.r ^ 3) * (γ t).rv.r.y + u.y - norm u / veff * (γ t).rv.v.y) t ∧
      HasDerivAt (fun t => (γ t).m * (γ t).rv.v.z) (-(mu * (γ t).m / norm (γ t).rv.r ^ 3) * (γ t).rv.r.z + u.z - norm u / veff * (γ t).rv.v.z) t := by
  intro t ht
  obtain ⟨d, hd, hx, hy, hz, hvx, hvy, hvz, hm⟩ := h.def_ t ht
  obtain ⟨⟨hr, hm0, -⟩, er, ex, ey, ez, em⟩ := (stark_iff mu veff u _ _).1 hd
  have c : ∀ p x y : ℝ, (γ t).m * (-(mu / p) * x + y / (γ t).m) = -(mu * (γ t).m / p) * x + y := fun p x y => by field_simp
  refine ⟨(hm.mul hvx).congr_deriv ?_, (hm.mul hvy).congr_deriv ?_, (hm.mul hvz).congr_deriv ?_⟩
  · rw [ex, em, c]; ring
  · rw [ey, em, c]; ring
  · rw [ez, em, c]; ring

/-- C65: the angular momentum changes by the torque of the thrust acceleration only. -/
theorem C65_torque (mu veff a b : ℝ) (u : V3 ℝ) (γ : ℝ → St ℝ) (h : SolvesM (starkDyn mu veff u) a b γ) :
    ∀ t ∈ Set.Icc a b,
      HasDerivAt (fun t => (cross (γ t).rv.r (γ t).rv.v).x) ((cross (γ t).rv.r u).x / (γ t).m) t ∧
      HasDerivAt (fun t => (cross (γ t).rv.r (γ t).rv.v).y) ((cross (γ t).rv.r u).y / (γ t).m) t ∧
      HasDerivAt (fun t => (cross (γ t).rv.r (γ t).rv.v).z) ((cross (γ t).rv.r u).z / (γ t).m) t := by
  intro t ht
  obtain ⟨d, hd, hx, hy, hz, hvx, hvy, hvz, hm⟩ := h.def_ t ht
  obtain ⟨⟨hr, hm0, -⟩, er, ex, ey, ez, em⟩ := (stark_iff mu veff u _ _).1 hd
  have h1 := (hy.mul hvz).sub (hz.mul hvy)
  have h2 := (hz.mul hvx).sub (hx.mul hvz)
  have h3 := (hx.mul hvy).sub (hy.mul hvx)
  rw [ex] at *
  rw [ey] at *
  rw [ez] at *
  rw [er] at *
  refine ⟨?_, ?_, ?_⟩
  · exact h1.congr_deriv (by simp only [cross]; ring)
  · exact h2.congr_deriv (by simp only [cross]; ring)
  · exact h3.congr_deriv (by simp only [cross]; ring)

/-- C65, the rocket equation: far from any attraction, thrust changes the velocity along its direction by the effective velocity times the
logarithm of the ratio of the masses. -/
theorem C65_rocket {veff a b : ℝ} {u : V3 ℝ} (hu : u ≠ 0) {γ : ℝ → St ℝ} (h : SolvesM (starkDyn 0 veff u) a b γ) :
    ∀ t ∈ Set.Icc a b, (γ t).rv.v = (γ a).rv.v + (veff * log ((γ a).m / (γ t).m) / norm u) • u := by
  intro t ht
  have hn : norm u ≠ 0 := fun e => hu (norm_eq_zero.1 e)
  have ha : a ∈ Set.Icc a b := ⟨le_refl a, ht.1.trans ht.2⟩
  have key : ∀ (f : ℝ → ℝ) (c : ℝ), (∀ t ∈ Set.Icc a b, HasDerivAt f (c / (γ t).m) t) →
      f t = f a + veff * log ((γ a).m / (γ t).m) / norm u * c := by
    intro f c hf
    have := const_of_deriv (f := fun t => f t + veff * log (γ t).m / norm u * c) (a := a) (b := b) (fun t ht => by
      obtain ⟨d, hd, -, -, -, -, -, -, hm⟩ := h.def_ t ht
      obtain ⟨⟨hr, hm0, hv⟩, -, -, -, -, em⟩ := (stark_iff 0 veff u _ _).1 hd
      have hv := hv hu
      refine ((hf t ht).add ((((hm.log hm0).const_mul veff).div_const (norm u)).mul_const c)).congr_deriv ?_
      rw [em]
      field_simp
      ring) t ht
    have m0 := fun t ht => (C65_mass 0 veff a b u γ h t ht).2
    rw [log_div (m0 a ha) (m0 t ht)]
    linear_combination this
  have K : ∀ t ∈ Set.Icc a b, HasDerivAt (fun t => (γ t).rv.v.x) (u.x / (γ t).m) t ∧
      HasDerivAt (fun t => (γ t).rv.v.y) (u.y / (γ t).m) t ∧ HasDerivAt (fun t => (γ t).rv.v.z) (u.z / (γ t).m) t := by
    intro t ht
    obtain ⟨d, hd, -, -, -, hvx, hvy, hvz, -⟩ := h.def_ t ht
    obtain ⟨-, -, ex, ey, ez, -⟩ := (stark_iff 0 veff u _ _).1 hd
    exact ⟨hvx.congr_deriv (by rw [ex]; ring), hvy.congr_deriv (by rw [ey]; ring), hvz.congr_deriv (by rw [ez]; ring)⟩
  ext
  · simpa using key _ _ fun t ht => (K t ht).1
  · simpa using key _ _ fun t ht => (K t ht).2.1
  · simpa using key _ _ fun t ht => (K t ht).2.2

/-- A case: half of the mass is burnt. -/
example : ∃ γ : ℝ → St ℝ, SolvesM (starkDyn 0 1 ⟨1, 0, 0⟩) 0 (1 / 2) γ ∧ (γ (1 / 2)).rv.v.x = log 2 := by
  refine ⟨_, C65_mass_example, ?_⟩
  show -log (1 - 1 / 2) = log 2
  rw [← log_inv]
  norm_num

end Kep3.Stark
