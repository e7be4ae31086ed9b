import Verif.Lemmas.Flow
/-! # Divergence and curl in rotated axes -/
namespace Wiz.Spec
open Filter Topology
noncomputable section

/-- coordinates relative to `c` along the axes `a`, `b`, `s` -/
def inAxes (a b s c p : V3 ℝ) : V3 ℝ := ⟨V3.dot (p - c) a, V3.dot (p - c) b, V3.dot (p - c) s⟩
/-- the vector with components `v` along the axes `a`, `b`, `s` -/
def fromAxes (a b s v : V3 ℝ) : V3 ℝ := V3.smul v.x a + V3.smul v.y b + V3.smul v.z s

theorem hasGrad_axis (c d P : V3 ℝ) : HasGrad (fun p => V3.dot (p - c) d) P d := by
  have := (((hasGrad_x P).sub_const c.x).const_mul d.x).add (((hasGrad_y P).sub_const c.y).const_mul d.y) |>.add
    (((hasGrad_z P).sub_const c.z).const_mul d.z)
  have e : ∀ p : V3 ℝ, V3.dot (p - c) d = d.x * (p.x - c.x) + d.y * (p.y - c.y) + d.z * (p.z - c.z) := by
    intro p; simp only [V3.dot, V3.sub_x, V3.sub_y, V3.sub_z]; ring
  simp only [← e] at this
  refine this.congr_grad ?_
  ext <;> simp

theorem grads_frame (a b s c P gx gy gz : V3 ℝ) (v : V3 ℝ → V3 ℝ)
    (hx : HasGrad (fun p => (v p).x) (inAxes a b s c P) gx) (hy : HasGrad (fun p => (v p).y) (inAxes a b s c P) gy)
    (hz : HasGrad (fun p => (v p).z) (inAxes a b s c P) gz) (k l n : ℝ) :
    HasGrad (fun p => k * (v (inAxes a b s c p)).x + l * (v (inAxes a b s c p)).y + n * (v (inAxes a b s c p)).z) P
      (V3.smul (k * gx.x + l * gy.x + n * gz.x) a + V3.smul (k * gx.y + l * gy.y + n * gz.y) b
        + V3.smul (k * gx.z + l * gy.z + n * gz.z) s) := by
  have h1 := HasGrad.comp (T := inAxes a b s c) hx (hasGrad_axis c a P) (hasGrad_axis c b P) (hasGrad_axis c s P)
  have h2 := HasGrad.comp (T := inAxes a b s c) hy (hasGrad_axis c a P) (hasGrad_axis c b P) (hasGrad_axis c s P)
  have h3 := HasGrad.comp (T := inAxes a b s c) hz (hasGrad_axis c a P) (hasGrad_axis c b P) (hasGrad_axis c s P)
  refine (((h1.const_mul k).add (h2.const_mul l)).add (h3.const_mul n)).congr_grad ?_
  ext <;> simp <;> ring

/-- a divergence-free field stays so in orthonormal axes -/
theorem DivFreeAt.frame {v : V3 ℝ → V3 ℝ} {a b s c P : V3 ℝ} (ha : V3.dot a a = 1) (hb : V3.dot b b = 1) (hs : V3.dot s s = 1)
    (hab : V3.dot a b = 0) (has : V3.dot a s = 0) (hbs : V3.dot b s = 0) (h : DivFreeAt v (inAxes a b s c P)) :
    DivFreeAt (fun p => fromAxes a b s (v (inAxes a b s c p))) P := by
  obtain ⟨gx, gy, gz, hx, hy, hz, hd⟩ := h
  have G := grads_frame a b s c P gx gy gz v hx hy hz
  refine ⟨_, _, _, (G a.x b.x s.x).congr (Eventually.of_forall fun q => ?_), (G a.y b.y s.y).congr (Eventually.of_forall fun q => ?_),
    (G a.z b.z s.z).congr (Eventually.of_forall fun q => ?_), ?_⟩
  · simp [fromAxes]; ring
  · simp [fromAxes]; ring
  · simp [fromAxes]; ring
  · simp only [V3.add_x, V3.add_y, V3.add_z, V3.smul_x, V3.smul_y, V3.smul_z]
    simp only [V3.dot] at *
    linear_combination hd + gx.x * ha + gy.y * hb + gz.z * hs + (gx.y + gy.x) * hab + (gx.z + gz.x) * has + (gy.z + gz.y) * hbs

theorem CurlFreeAt.frame {v : V3 ℝ → V3 ℝ} {a b s c P : V3 ℝ} (h : CurlFreeAt v (inAxes a b s c P)) :
    CurlFreeAt (fun p => fromAxes a b s (v (inAxes a b s c p))) P := by
  obtain ⟨gx, gy, gz, hx, hy, hz, h1, h2, h3⟩ := h
  have G := grads_frame a b s c P gx gy gz v hx hy hz
  refine ⟨_, _, _, (G a.x b.x s.x).congr (Eventually.of_forall fun q => ?_), (G a.y b.y s.y).congr (Eventually.of_forall fun q => ?_),
    (G a.z b.z s.z).congr (Eventually.of_forall fun q => ?_), ?_, ?_, ?_⟩
  · simp [fromAxes]; ring
  · simp [fromAxes]; ring
  · simp [fromAxes]; ring
  all_goals
    simp only [V3.add_x, V3.add_y, V3.add_z, V3.smul_x, V3.smul_y, V3.smul_z, h1, h2, h3]
    ring

end
end Wiz.Spec
