import Verif.Model.Core
import Verif.Num.XReal
import Mathlib.Algebra.BigOperators.Fin

/-!
# Specification for C143: what "is an exponential family" means

A parametrised family of distributions is an exponential family on a set of points when finitely many statistics
of the data, common to all parameters, carry everything the parameter has to do with the data:
`log p(x | θ) = Σ ηᵢ(θ) Tᵢ(x) - A(θ) + h(x)`.
-/

namespace Verif.Spec
open Verif

/-- `family θ d` says that `d` is the member with parameter `θ`, `val d x` is its log-density at `x`, and `S` is the
common support. -/
def IsExponentialFamily {Θ M X : Type} (family : Θ → M → Prop) (val : M → X → XReal) (S : X → Prop) : Prop :=
  ∃ (n : ℕ) (η : Θ → Fin n → ℝ) (A : Θ → ℝ) (T : X → Fin n → ℝ) (h : X → ℝ),
    ∀ θ d, family θ d → ∀ x, S x → val d x = .fin (∑ i, η θ i * T x i - A θ + h x)

/-- every finite value of a floating-point argument -/
def AnyReal (x : XReal) : Prop := ∃ r : ℝ, x = .fin r

/-- the finite values in a set of reals -/
def RealIn (s : Set ℝ) (x : XReal) : Prop := ∃ r ∈ s, x = .fin r

end Verif.Spec
