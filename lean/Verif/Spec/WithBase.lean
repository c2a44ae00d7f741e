import Verif.Num.XReal
import Verif.Model.DistDiscrete
import Verif.Model.Derived

/-! # Counting distributions with their base measure

The log-densities of the binomial and the negative binomial are relative to their coefficient measures
(`derived/binomial_coefficient.rs`, `derived/negative_binomial_coefficient.rs`). -/

namespace Verif

/-- The binomial distribution together with its base measure, the binomial coefficients: the log-density with
respect to the counting measure is the sum of the two. -/
noncomputable def Binomial.withBase (d : Binomial XReal) : IntegralMeasure (Binomial XReal) ℕ XReal :=
  ⟨d, fun k => logDensityWrtRoot (⟨d.n⟩ : BinomialCoefficientMeasure XReal) k⟩

/-- The negative binomial distribution together with its base measure. -/
noncomputable def NegativeBinomial.withBase (d : NegativeBinomial XReal) : IntegralMeasure (NegativeBinomial XReal) ℕ XReal :=
  ⟨d, fun k => logDensityWrtRoot (⟨d.r⟩ : NegativeBinomialCoefficientMeasure XReal) k⟩

end Verif
