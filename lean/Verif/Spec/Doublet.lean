import Verif.Spec.BiotSavart
namespace Wiz.Spec
/-- velocity at `P` of a point doublet of moment `mom` at `X0`:
`(3 r (m·r)/|r|⁵ - m/|r|³)/(4π)`, `r = P - X0`. -/
noncomputable def doubletField (mom X0 P : V3 ℝ) : V3 ℝ :=
  let r := P - X0
  V3.smul (1/(4*Real.pi))
    (V3.smul (3 * V3.dot mom r / V3.norm r ^ 5) r - V3.smul (1 / V3.norm r ^ 3) mom)
end Wiz.Spec
