import Verif.Lemmas.RotorDisk2
/-! # Velocity of the skewed sheet far downstream, inside the wake -/
namespace Wiz
open Spec Real MeasureTheory Set

variable {R x y χ γ : ℝ}

theorem far_scalar {n w ρ e d R : ℝ} (hR : 0 < R) (hw : 0 < w) (hn : 0 < n) (hρ : 0 < ρ) (h : n^2 = w^2 + ρ^2) (he : |e| ≤ R * ρ) (hd : |d| ≤ R) :
    |(e + (w - n) * d)/(n * (n - w)) - 2 * e/ρ^2| ≤ 2 * R/w := by
  have h1 : w < n := by nlinarith
  have h2 : ρ < n := by nlinarith
  have h3 : (n - w) * (n + w) = ρ^2 := by linear_combination h
  have hnw : 0 < n - w := by linarith
  have e1 : (e + (w - n) * d)/(n * (n - w)) - 2 * e/ρ^2 = -(e/(n * (n + w))) - d/n := by
    rw [← h3]
    have : n + w ≠ 0 := by positivity
    have := hnw.ne'
    field_simp
    ring
  rw [e1]
  have b1 : |e/(n * (n + w))| ≤ R/w := by
    rw [abs_div, abs_of_pos (by positivity : 0 < n * (n + w)), div_le_div_iff₀ (by positivity) hw]
    calc |e| * w ≤ (R * ρ) * w := by gcongr
      _ ≤ R * (n * (n + w)) := by rw [mul_assoc]; gcongr; linarith
  have b2 : |d/n| ≤ R/w := by
    rw [abs_div, abs_of_pos hn]; gcongr
  calc |-(e/(n * (n + w))) - d/n| ≤ |-(e/(n * (n + w)))| + |d/n| := abs_sub _ _
    _ ≤ R/w + R/w := by rw [abs_neg]; gcongr
    _ = 2 * R/w := by ring

theorem cross_comp_sq (a b : V3 ℝ) (π' : V3 ℝ → ℝ) (hπ : π' = V3.x ∨ π' = V3.y ∨ π' = V3.z) :
    (π' (V3.cross a b))^2 ≤ V3.dot a a * V3.dot b b := by
  rcases hπ with rfl | rfl | rfl <;> simp only [V3.cross, V3.dot]
  · nlinarith [sq_nonneg (a.x * b.y - a.y * b.x), sq_nonneg (a.x * b.z - a.z * b.x), sq_nonneg (a.x*b.x + a.y*b.y + a.z*b.z)]
  · nlinarith [sq_nonneg (a.x * b.y - a.y * b.x), sq_nonneg (a.y * b.z - a.z * b.y), sq_nonneg (a.x*b.x + a.y*b.y + a.z*b.z)]
  · nlinarith [sq_nonneg (a.y * b.z - a.z * b.y), sq_nonneg (a.x * b.z - a.z * b.x), sq_nonneg (a.x*b.x + a.y*b.y + a.z*b.z)]

/-- A generator of the wake seen from a point `λ` downstream, against the same generator extended to infinity both ways. -/
theorem gen_far (hR : 0 < R) (h : x^2 + y^2 < R^2) (hχ : 0 < cos χ) {z : ℝ} (hz : 2 * R * cos χ < z) (θ : ℝ)
    (π' : V3 ℝ → ℝ) (hπ : π' = V3.x ∨ π' = V3.y ∨ π' = V3.z) :
    |π' (tangGenerator γ R (tan χ) ⟨x + tan χ * z, y, z⟩ θ)
      - π' (tangGenerator γ R (tan χ) ⟨x, y, 0⟩ θ + ⟨-(tangGenerator γ R (tan (-χ)) ⟨x, y, 0⟩ θ).x,
          -(tangGenerator γ R (tan (-χ)) ⟨x, y, 0⟩ θ).y, (tangGenerator γ R (tan (-χ)) ⟨x, y, 0⟩ θ).z⟩)|
      ≤ |γ|/(4*π) * (2 * R/(z/cos χ - 2 * R)) := by
  have hpi := pi_pos
  have hsc := sin_sq_add_cos_sq θ
  have hsx := sin_sq_add_cos_sq χ
  have hχ' : 0 < cos (-χ) := by rwa [cos_neg]
  have hc0 := hχ.ne'
  have o1 := offWake_disk hR h (tan χ) z
  have o2 : OffWake R (tan χ) ⟨x, y, 0⟩ := by have := offWake_disk hR h (tan χ) 0; rwa [mul_zero, add_zero] at this
  have o3 : OffWake R (tan (-χ)) ⟨x, y, 0⟩ := by have := offWake_disk hR h (tan (-χ)) 0; rwa [mul_zero, add_zero] at this
  rw [tangGenerator_eval (offWake_pos o1 θ).1 (offWake_pos o1 θ).2, tangGenerator_eval (offWake_pos o2 θ).1 (offWake_pos o2 θ).2,
    tangGenerator_eval (offWake_pos o3 θ).1 (offWake_pos o3 θ).2]
  have p1 := offWake_pos o1 θ
  have p2 := offWake_pos o2 θ
  have p3 := offWake_pos o3 θ
  rw [skewDir_tan hχ] at *
  rw [skewDir_tan hχ', sin_neg, cos_neg] at *
  obtain ⟨hn0, hq1⟩ := p2
  obtain ⟨hn, hq⟩ := p1
  obtain ⟨-, hq2⟩ := p3
  have tz : tan χ * z = (z/cos χ) * sin χ := by rw [tan_eq_sin_div_cos]; ring
  have hl : 2 * R < z/cos χ := by rw [lt_div_iff₀ hχ]; linarith
  have zl : z = (z/cos χ) * cos χ := by field_simp
  have hA : (⟨x + tan χ * z, y, z⟩ : V3 ℝ) - rim R θ = (⟨x,y,0⟩ - rim R θ) + V3.smul (z/cos χ) ⟨sin χ, 0, cos χ⟩ := by
    ext <;> simp only [V3.sub_x, V3.sub_y, V3.sub_z, V3.add_x, V3.add_y, V3.add_z, V3.smul_x, V3.smul_y, V3.smul_z, tz]
    · ring
    · ring
    · rw [← zl]; ring
  rw [hA] at hn hq ⊢
  clear hA tz zl hz
  generalize z/cos χ = l at *
  have ha1 : V3.dot ((⟨x,y,0⟩ : V3 ℝ) - rim R θ) ⟨sin χ, 0, cos χ⟩ = sin χ * (x - R * cos θ) := by
    simp only [V3.dot, rim, V3.sub_x, V3.sub_y, V3.sub_z]; ring
  have ha2 : V3.dot ((⟨x,y,0⟩ : V3 ℝ) - rim R θ) ⟨-sin χ, 0, cos χ⟩ = -(sin χ * (x - R * cos θ)) := by
    simp only [V3.dot, rim, V3.sub_x, V3.sub_y, V3.sub_z]; ring
  have hw : V3.dot (((⟨x,y,0⟩ : V3 ℝ) - rim R θ) + V3.smul l ⟨sin χ, 0, cos χ⟩) ⟨sin χ, 0, cos χ⟩ = sin χ * (x - R * cos θ) + l := by
    simp only [V3.dot, rim, V3.sub_x, V3.sub_y, V3.sub_z, V3.add_x, V3.add_y, V3.add_z, V3.smul_x, V3.smul_y, V3.smul_z]
    linear_combination l * hsx
  have hN0 : V3.norm ((⟨x,y,0⟩ : V3 ℝ) - rim R θ)^2 = (x - R * cos θ)^2 + (y - R * sin θ)^2 := by
    simp only [V3.norm, rim, V3.sub_x, V3.sub_y, V3.sub_z]
    rw [sq_sqrt (by positivity)]; ring
  have hN : V3.norm (((⟨x,y,0⟩ : V3 ℝ) - rim R θ) + V3.smul l ⟨sin χ, 0, cos χ⟩)^2
      = (x - R * cos θ)^2 + (y - R * sin θ)^2 + 2 * l * (sin χ * (x - R * cos θ)) + l^2 := by
    simp only [V3.norm, rim, V3.sub_x, V3.sub_y, V3.sub_z, V3.add_x, V3.add_y, V3.add_z, V3.smul_x, V3.smul_y, V3.smul_z]
    rw [sq_sqrt (by positivity)]
    linear_combination l^2 * hsx
  rw [ha1] at hq1
  rw [ha2] at hq2
  rw [hw] at hq
  rw [ha1, ha2, hw]
  generalize V3.norm (((⟨x,y,0⟩ : V3 ℝ) - rim R θ) + V3.smul l ⟨sin χ, 0, cos χ⟩) = n at *
  generalize V3.norm ((⟨x,y,0⟩ : V3 ℝ) - rim R θ) = n0 at *
  -- bounds
  have hax : |sin χ * (x - R * cos θ)| < 2 * R := by
    have h1 : |x| < R := abs_lt_of_sq_lt_sq (by nlinarith [sq_nonneg y]) hR.le
    have h2 := abs_cos_le_one θ
    have h3 : |x - R * cos θ| < 2 * R := by
      calc |x - R * cos θ| ≤ |x| + |R * cos θ| := abs_sub _ _
        _ = |x| + R * |cos θ| := by rw [abs_mul, abs_of_pos hR]
        _ ≤ |x| + R * 1 := by gcongr
        _ < 2 * R := by linarith
    rw [abs_mul]
    calc |sin χ| * |x - R * cos θ| ≤ 1 * |x - R * cos θ| := by gcongr; exact abs_sin_le_one χ
      _ < 2 * R := by linarith
  have hwl : l - 2 * R < sin χ * (x - R * cos θ) + l := by have := (abs_lt.mp hax).1; linarith
  have hw0 : 0 < sin χ * (x - R * cos θ) + l := by linarith
  have hρ : 0 < n0^2 - (sin χ * (x - R * cos θ))^2 := by
    have := mul_pos hq1 hq2; nlinarith
  set a := sin χ * (x - R * cos θ) with ha
  set ρ := √(n0^2 - a^2) with hρd
  have hρ2 : ρ^2 = n0^2 - a^2 := sq_sqrt hρ.le
  have hρ0 : 0 < ρ := sqrt_pos.mpr hρ
  have hnn : n^2 = (a + l)^2 + ρ^2 := by rw [hρ2, hN, hN0]; ring
  -- the perpendicular part
  set e : V3 ℝ := V3.cross (rimTangent R θ) ((⟨x,y,0⟩ : V3 ℝ) - rim R θ - V3.smul a ⟨sin χ, 0, cos χ⟩) with hedef
  set d : V3 ℝ := V3.cross (rimTangent R θ) ⟨sin χ, 0, cos χ⟩ with hddef
  have htt : V3.dot (rimTangent R θ) (rimTangent R θ) = R^2 := by
    simp only [V3.dot, rimTangent]; linear_combination R^2 * hsc
  have he : |π' e| ≤ R * ρ := by
    apply abs_le_of_sq_le_sq _ (by positivity)
    refine (cross_comp_sq _ _ π' hπ).trans (le_of_eq ?_)
    rw [htt, mul_pow, hρ2, hN0]
    congr 1
    simp only [V3.dot, rim, V3.sub_x, V3.sub_y, V3.sub_z, V3.smul_x, V3.smul_y, V3.smul_z, ha]
    linear_combination (sin χ * (x - R * cos θ))^2 * hsx
  have hd : |π' d| ≤ R := by
    apply abs_le_of_sq_le_sq _ hR.le
    refine (cross_comp_sq _ _ π' hπ).trans (le_of_eq ?_)
    rw [htt]
    simp only [V3.dot]
    linear_combination R^2 * hsx
  have key := far_scalar hR hw0 hn hρ0 hnn he hd
  have hlim : π' (V3.smul (γ/(4*π)/(n0 * (n0 - a))) (V3.cross (rimTangent R θ) ((⟨x,y,0⟩ : V3 ℝ) - rim R θ) - V3.smul n0 d)
      + ⟨-(V3.smul (γ/(4*π)/(n0 * (n0 - -a))) (V3.cross (rimTangent R θ) ((⟨x,y,0⟩ : V3 ℝ) - rim R θ) - V3.smul n0 (V3.cross (rimTangent R θ) ⟨-sin χ, 0, cos χ⟩))).x,
        -(V3.smul (γ/(4*π)/(n0 * (n0 - -a))) (V3.cross (rimTangent R θ) ((⟨x,y,0⟩ : V3 ℝ) - rim R θ) - V3.smul n0 (V3.cross (rimTangent R θ) ⟨-sin χ, 0, cos χ⟩))).y,
        (V3.smul (γ/(4*π)/(n0 * (n0 - -a))) (V3.cross (rimTangent R θ) ((⟨x,y,0⟩ : V3 ℝ) - rim R θ) - V3.smul n0 (V3.cross (rimTangent R θ) ⟨-sin χ, 0, cos χ⟩))).z⟩)
      = γ/(4*π) * (2 * π' e/ρ^2) := by
    have h1 : n0 - a ≠ 0 := hq1.ne'
    have h2 : n0 - -a ≠ 0 := hq2.ne'
    have h3 := hn0.ne'
    rw [show ρ^2 = (n0 - a) * (n0 - -a) by rw [hρ2]; ring]
    rcases hπ with rfl | rfl | rfl
    · simp only [hedef, hddef, V3.cross, rimTangent, rim, V3.sub_x, V3.sub_y, V3.sub_z, V3.add_x, V3.smul_x, V3.smul_y, V3.smul_z]
      field_simp
      ring
    · simp only [hedef, hddef, V3.cross, rimTangent, rim, V3.sub_x, V3.sub_y, V3.sub_z, V3.add_y, V3.smul_x, V3.smul_y, V3.smul_z]
      field_simp
      ring
    · simp only [hedef, hddef, V3.cross, rimTangent, rim, V3.sub_x, V3.sub_y, V3.sub_z, V3.add_z, V3.smul_x, V3.smul_y, V3.smul_z]
      field_simp
      ring
  have hgen : π' (V3.smul (γ/(4*π)/(n * (n - (a + l)))) (V3.cross (rimTangent R θ) (((⟨x,y,0⟩ : V3 ℝ) - rim R θ) + V3.smul l ⟨sin χ, 0, cos χ⟩) - V3.smul n d))
      = γ/(4*π) * ((π' e + (a + l - n) * π' d)/(n * (n - (a + l)))) := by
    have h1 : n - (a + l) ≠ 0 := hq.ne'
    have h3 := hn.ne'
    rcases hπ with rfl | rfl | rfl <;>
    · simp only [hedef, hddef, V3.cross, V3.sub_x, V3.sub_y, V3.sub_z, V3.add_x, V3.add_y, V3.add_z, V3.smul_x, V3.smul_y, V3.smul_z]
      field_simp
      ring
  rw [hlim, hgen, ← mul_sub, abs_mul, abs_div, abs_of_pos (by positivity : (0:ℝ) < 4*π)]
  have hm : 2 * R/(a + l) ≤ 2 * R/(l - 2 * R) := by
    apply div_le_div_of_nonneg_left (by positivity) (by linarith) hwl.le
  have := key.trans hm
  gcongr
end Wiz
