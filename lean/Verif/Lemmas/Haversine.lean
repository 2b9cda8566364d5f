import Verif.Model.Haversine
import Verif.Spec.Haversine
/-! # Haversine: lemmas -/
namespace FT
open Spec

theorem onSphere_norm (lat lon : Rat) : ‖onSphere lat lon‖ = 1 := by
  unfold onSphere
  rw [EuclideanSpace.norm_eq, Real.sqrt_eq_one]
  simp only [Fin.sum_univ_three, Real.norm_eq_abs, sq_abs]
  simp
  generalize (lat : ℝ) / 180 * Real.pi = φ
  generalize (lon : ℝ) / 180 * Real.pi = l
  have h1 := Real.sin_sq_add_cos_sq φ
  have h2 := Real.sin_sq_add_cos_sq l
  nlinarith

theorem onSphere_ne (lat lon : Rat) : onSphere lat lon ≠ 0 := by
  intro h
  have := onSphere_norm lat lon
  rw [h] at this
  simp at this

theorem onSphere_angle (lat1 lon1 lat2 lon2 : Rat) :
    InnerProductGeometry.angle (onSphere lat1 lon1) (onSphere lat2 lon2) =
      Real.arccos (Real.cos ((lat1 : ℝ) / 180 * Real.pi) * Real.cos ((lat2 : ℝ) / 180 * Real.pi) *
          Real.cos ((lon2 : ℝ) / 180 * Real.pi - (lon1 : ℝ) / 180 * Real.pi) +
        Real.sin ((lat1 : ℝ) / 180 * Real.pi) * Real.sin ((lat2 : ℝ) / 180 * Real.pi)) := by
  unfold InnerProductGeometry.angle
  rw [onSphere_norm, onSphere_norm, mul_one, div_one]
  congr 1
  unfold onSphere
  simp [PiLp.inner_apply, Fin.sum_univ_three]
  rw [Real.cos_sub]
  ring

theorem two_arcsin_sqrt (a : ℝ) (h0 : 0 ≤ a) (h1 : a ≤ 1) : 2 * Real.arcsin (Real.sqrt a) = Real.arccos (1 - 2 * a) := by
  have hs0 := Real.sqrt_nonneg a
  have hs1 : Real.sqrt a ≤ 1 := Real.sqrt_le_one.mpr h1
  have hb := Real.arcsin_nonneg.mpr hs0
  have hp := Real.arcsin_le_pi_div_two (Real.sqrt a)
  symm
  apply Real.arccos_eq_of_eq_cos (by linarith) (by linarith)
  rw [Real.cos_two_mul, Real.cos_sq', Real.sin_arcsin (by linarith) hs1, Real.sq_sqrt h0]
  ring

theorem haversineOf_eq (unit : String) (lat1 lon1 lat2 lon2 : Rat) :
    haversineOf unit (radians lat1) (radians lon1) (radians lat2) (radians lon2) =
      greatCircle (if unit = "kilometers" then 6371.0088 else 3958.7613) (onSphere lat1 lon1) (onSphere lat2 lon2) := by
  unfold haversineOf greatCircle
  simp only
  rw [mul_assoc]
  congr 1
  rw [onSphere_angle]
  have e : ∀ d : Rat, radians d = (d : ℝ) / 180 * Real.pi := by intro d; unfold radians; ring
  simp only [e]
  generalize (lat1 : ℝ) / 180 * Real.pi = a1
  generalize (lat2 : ℝ) / 180 * Real.pi = a2
  generalize (lon2 : ℝ) / 180 * Real.pi = b2
  generalize (lon1 : ℝ) / 180 * Real.pi = b1
  have hs : ∀ x : ℝ, Real.sin (x / 2) ^ 2 = (1 - Real.cos x) / 2 := by
    intro x
    rw [Real.sin_sq_eq_half_sub, mul_div_cancel₀ x (two_ne_zero)]
    ring
  have key : 1 - 2 * (Real.sin ((a2 - a1) / 2) ^ 2 + Real.cos a1 * Real.cos a2 * Real.sin ((b2 - b1) / 2) ^ 2) =
      Real.cos a1 * Real.cos a2 * Real.cos (b2 - b1) + Real.sin a1 * Real.sin a2 := by
    rw [hs, hs, Real.cos_sub a2 a1]
    ring
  have hbound : -1 ≤ Real.cos a1 * Real.cos a2 * Real.cos (b2 - b1) + Real.sin a1 * Real.sin a2 ∧
      Real.cos a1 * Real.cos a2 * Real.cos (b2 - b1) + Real.sin a1 * Real.sin a2 ≤ 1 := by
    have h1 := Real.sin_sq_add_cos_sq a1
    have h2 := Real.sin_sq_add_cos_sq a2
    have h3 := Real.neg_one_le_cos (b2 - b1)
    have h4 := Real.cos_le_one (b2 - b1)
    generalize Real.cos (b2 - b1) = c at *
    generalize Real.cos a1 = x at *
    generalize Real.cos a2 = y at *
    generalize Real.sin a1 = s at *
    generalize Real.sin a2 = t at *
    have h5 : c ^ 2 ≤ 1 := by nlinarith
    constructor
    · nlinarith [sq_nonneg (x * c + y), sq_nonneg (s + t), sq_nonneg x, mul_nonneg (sq_nonneg x) (sub_nonneg.mpr h5)]
    · nlinarith [sq_nonneg (x * c - y), sq_nonneg (s - t), sq_nonneg x, mul_nonneg (sq_nonneg x) (sub_nonneg.mpr h5)]
  rw [two_arcsin_sqrt _ (by linarith [key, hbound.2]) (by linarith [key, hbound.1]), key]

end FT
