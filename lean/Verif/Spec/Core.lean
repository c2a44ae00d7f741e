import Verif.Model.Core
import Verif.Num.XReal

/-!
# Specification vocabulary for the density core
-/

namespace Verif
open FloatOps

/-- What Rust guarantees about the placement of the two fields of the builder, whatever order and
offsets the compiler chooses: both lie inside the struct and they do not overlap. -/
structure LogDensity.Layout.Legal (lay : LogDensity.Layout) : Prop where
  measure_in : lay.offMeasure + lay.sizeMeasure ≤ lay.size
  base_in : lay.offBase + lay.sizeBase ≤ lay.size
  disjoint : lay.offMeasure + lay.sizeMeasure ≤ lay.offBase ∨
    lay.offBase + lay.sizeBase ≤ lay.offMeasure

/-- The two fields are at different addresses. -/
def LogDensity.Layout.Apart (lay : LogDensity.Layout) : Prop := lay.offMeasure ≠ lay.offBase

/-- `m.log_density().wrt(b).at(x)` as the user writes it. -/
def relLogDensity {M B T F : Type} [FloatOps F] [Measure M T] [Measure B T] [HasLogDensity M T F]
    [HasLogDensity B T F] (lay : LogDensity.Layout) (addr : ℕ) (m : M) (b : B) (x : T) : F :=
  ((LogDensity.new m).wrt b).evalAt lay addr x

/-- Every term of the decomposition is a finite number at the given point and parameters. -/
structure Decomposition.FiniteAt {X Θ : Type} (d : Decomposition X Θ XReal) (x : X) (θ : Θ) :
    Prop where
  data : ∀ f ∈ d.dataTerms, (f x).IsFin
  param : ∀ f ∈ d.paramTerms, (f θ).IsFin
  mixed : ∀ f ∈ d.mixedTerms, (f x θ).IsFin
  const : ∀ c ∈ d.constantTerms, c.IsFin

/-- The mathematical value of a decomposition: the sum of all its terms. -/
noncomputable def Decomposition.total {X Θ : Type} (d : Decomposition X Θ XReal) (x : X) (θ : Θ) : ℝ :=
  (d.dataTerms.map (fun f => (f x).toReal)).sum + (d.paramTerms.map (fun f => (f θ).toReal)).sum
    + (d.mixedTerms.map (fun f => (f x θ).toReal)).sum + (d.constantTerms.map XReal.toReal).sum

end Verif
