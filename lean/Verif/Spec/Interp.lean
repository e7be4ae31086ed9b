import Mathlib.Data.Real.Basic

/-! # Piecewise-linear interpolation of samples -/
namespace Wiz.Spec

/-- `L` is the piecewise-linear function through the samples `(X_k,U_k)`, continued by the end values. -/
structure Interpolates (X U : List ℝ) (L : ℝ → ℝ) : Prop where
  left : ∀ a u, X[0]? = some a → U[0]? = some u → ∀ x ≤ a, L x = u
  right : ∀ b u, X.getLast? = some b → U.getLast? = some u → ∀ x, b ≤ x → L x = u
  between : ∀ k a b u v, X[k]? = some a → X[k+1]? = some b → U[k]? = some u → U[k+1]? = some v →
    ∀ x, a ≤ x → x ≤ b → L x = u + (v - u) * ((x - a) / (b - a))

end Wiz.Spec
