import Verif.Spec.RadonNikodym
import Mathlib.MeasureTheory.Constructions.Pi

/-! # The law of a sample of `n` observations -/

namespace Verif.Spec
open MeasureTheory

/-- The measure on `n`-tuples with log-density `ld`, a function of the list of observations. -/
noncomputable def jointLaw {X α : Type} [MeasurableSpace α] (μ : MeasureTheory.Measure α) (emb : α → X) (n : ℕ)
    (ld : List X → XReal) : MeasureTheory.Measure (Fin n → α) :=
  (MeasureTheory.Measure.pi fun _ => μ).withDensity fun v =>
    ENNReal.ofReal (XReal.density (ld (List.ofFn fun i => emb (v i))))

end Verif.Spec
