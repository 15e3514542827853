import Verif.Model.Fit
import Mathlib.Analysis.SpecialFunctions.Log.Basic

/-!
# Information criteria and bounds

Model of criteria.go:10-76 over the reals.  `math.Log` is `Real.log`; for arguments that are not
positive the two differ (Go: -Inf or NaN), so the theorems ask for positive arguments.
-/

namespace GoSelect

/-- criteria.go:10 `RssTol`. -/
noncomputable def rssTol : ℝ := 1 / 10 ^ 12

/-- `math.MaxFloat64`. -/
noncomputable def maxFloat64 : ℝ := (2 - 1 / 2 ^ 52) * 2 ^ 1023

/-- criteria.go:17-19 `Aic`. -/
noncomputable def aic (numFeat numData : Nat) (logL : ℝ) : ℝ :=
  2 * numFeat + numData * Real.log logL

/-- criteria.go:23-30 `Aicc`.  `numData - numFeat - 1` is an `int`. -/
noncomputable def aicc (numFeat numData : Nat) (logL : ℝ) : ℝ :=
  let denum : ℝ := ((numData : Int) - numFeat - 1 : Int)
  let denum : ℝ := if (numFeat : Int) ≥ (numData : Int) - 1 then 1 else denum
  aic numFeat numData logL + ((2 * numFeat * numFeat + 2 * numFeat : Nat) : ℝ) / denum

/-- criteria.go:33-35 `Bic`. -/
noncomputable def bic (numFeat numData : Nat) (logL : ℝ) : ℝ :=
  numFeat * Real.log numData + numData * Real.log logL

/-- `GetDesignMatrix`, `Fit`, `Rss` in a row (criteria.go:50-52, 58-60; optimize.go:224-226):
coefficients and residual sum of squares.  `svd` is gonum's decomposition. -/
def fitModel {K : Type} [Field K] [LinearOrder K] (svd : Mat K → SVD K) (X : Mat K) (y : List K)
    (model : List Bool) : Option (List K × K) :=
  match getDesignMatrix model X with
  | none => none
  | some design =>
    match fit (svd design) design y with
    | none => none
    | some coeff =>
      match rss design coeff y with
      | none => none
      | some r => some (coeff, r)

/-- criteria.go:48-53. -/
noncomputable def boundsRssLcs (svd : Mat ℝ → SVD ℝ) (lcsMod : List Bool) (X : Mat ℝ)
    (y : List ℝ) : Option ℝ :=
  if 0 < numFeatures lcsMod then (fitModel svd X y lcsMod).map (·.2) else some maxFloat64

/-- criteria.go:55-61. -/
noncomputable def boundsRssGcs (svd : Mat ℝ → SVD ℝ) (gcsMod : List Bool) (X : Mat ℝ)
    (y : List ℝ) : Option ℝ :=
  if numFeatures gcsMod < X.nr then (fitModel svd X y gcsMod).map (·.2) else some rssTol

/-- criteria.go:41-66 `bounds`, for a criterion with values in `β` (reals, or reals with infinities). -/
noncomputable def bounds {β : Type} (svd : Mat ℝ → SVD ℝ) (model : List Bool) (start : Nat) (X : Mat ℝ)
    (y : List ℝ) (criteria : Nat → Nat → ℝ → β) : Option (β × β) :=
  match gcs model start, lcs model start with
  | some gcsMod, some lcsMod =>
    match boundsRssLcs svd lcsMod X y, boundsRssGcs svd gcsMod X y with
    | some rssLcs, some rssGcs =>
      some (criteria (numFeatures lcsMod) y.length rssGcs,
            criteria (numFeatures gcsMod) y.length rssLcs)
    | _, _ => none
  | _, _ => none

/-- criteria.go:69-71 `BoundsAIC`. -/
noncomputable def boundsAIC (svd : Mat ℝ → SVD ℝ) (model : List Bool) (start : Nat) (X : Mat ℝ)
    (y : List ℝ) : Option (ℝ × ℝ) := bounds svd model start X y aic

/-- criteria.go:74-76 `BoundsAICC`. -/
noncomputable def boundsAICC (svd : Mat ℝ → SVD ℝ) (model : List Bool) (start : Nat) (X : Mat ℝ)
    (y : List ℝ) : Option (ℝ × ℝ) := bounds svd model start X y aicc

end GoSelect
