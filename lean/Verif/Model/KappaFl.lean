import Verif.Model.Kappa
import Verif.Model.WeightsFl

/-!
# Cohen's kappa in floating point

util.go:465-467 and cohens_kappa.go:26-45 with a rounding after every operation and conversion (`Model.WeightsFl`).  Products of
counters do not overflow.
-/

namespace GoSelect

noncomputable section

/-- `float64(k)`. -/
def natFl (rnd : ℝ → ℝ) (k : Nat) : Fl ℝ := .fin (rnd k)

/-- A rounded quotient. -/
def quotFl (rnd : ℝ → ℝ) (a b : Fl ℝ) : Fl ℝ := roundFl rnd (Fl.div a b)

/-- util.go:435-468 `CohenKappa`. -/
def cohenKappaFl (rnd : ℝ → ℝ) (s1 s2 : List Int) (totNum : Nat) : Fl ℝ :=
  if s1.length = 0 ∧ s2.length = 0 then .fin 1
  else
    let c := kappaCounts s1 s2 totNum
    let PrA := quotFl rnd (natFl rnd (c.n11 + c.n22)) (natFl rnd totNum)
    let PrE := roundFl rnd (Fl.add
      (quotFl rnd (natFl rnd ((c.n11 + c.n12) * (c.n11 + c.n21))) (natFl rnd (totNum * totNum)))
      (quotFl rnd (natFl rnd ((c.n12 + c.n22) * (c.n21 + c.n22))) (natFl rnd (totNum * totNum))))
    quotFl rnd (roundFl rnd (Fl.sub PrA PrE)) (roundFl rnd (Fl.sub (.fin 1) PrE))

/-- cohens_kappa.go:26-45 `GetCohensKappa` with `nc` columns, for the selections of the two halves of every sample. -/
def getCohensKappaFl (rnd : ℝ → ℝ) (nc : Nat) (samples : List (List Int × List Int)) : Fl ℝ :=
  quotFl rnd (samples.foldl (fun kappa s => roundFl rnd (Fl.add kappa (cohenKappaFl rnd s.1 s.2 nc))) (.fin 0))
    (natFl rnd samples.length)

end

end GoSelect
