import Mathlib.Data.Real.Basic
/-!
# Specification: mean and sample variance
-/
namespace Fhe

/-- The mean of a list of integers. -/
noncomputable def mean (values : List Int) : ℝ := (values.map fun v : Int => (v : ℝ)).sum / values.length

/-- The sample variance: the sum of the squared distances from the mean, over one less than the number of values. -/
noncomputable def sampleVariance (values : List Int) : ℝ := (values.map fun v : Int => ((v : ℝ) - mean values) ^ 2).sum / (values.length - 1)

end Fhe
