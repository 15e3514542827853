import Verif.Proofs.CrdDescFl
import Verif.Props.C85
import Verif.Props.C86

/-!
C141: missing values in the lasso by coordinate descent.
-/

namespace GoSelect

open Finset Spec

/-! ### Specification -/

/-- What is assumed about inner products: exact for numbers, and NaN if NaN is multiplied by anything but 0 (gonum may
leave out products with 0). -/
structure Spec.GonumDot (dot : Nat → (Nat → Fl ℝ) → (Nat → Fl ℝ) → Fl ℝ) : Prop where
  fin : ∀ (n : Nat) (x z : Nat → Fl ℝ) (a b : Nat → ℝ), (∀ r < n, x r = .fin (a r)) → (∀ r < n, z r = .fin (b r)) →
    dot n x z = .fin (∑ r ∈ range n, a r * b r)
  nan : ∀ (n : Nat) (x z : Nat → Fl ℝ) (r : Nat), r < n → (x r = .nan ∧ z r ≠ .fin 0 ∨ z r = .nan ∧ x r ≠ .fin 0) →
    dot n x z = .nan

/-- Column `c` has a missing or an infinite value. -/
def Spec.Gap (X : Mat (Fl ℝ)) (c : Nat) : Prop := ∃ r < X.nr, ∀ a, X.get r c ≠ .fin a

/-- Raw data without missing values. -/
def finMat (X : Mat ℝ) : Mat (Fl ℝ) := ⟨X.nr, X.nc, fun r c => .fin (X.get r c)⟩

/-- A further feature with a gap does not change which of the features `W` are found. -/
def Spec.KeepsOthers (found : Mat (Fl ℝ) → List (Fl ℝ) → Option (List Nat)) : Prop :=
  ∀ (W : Mat ℝ) (X : Mat (Fl ℝ)) (y : List ℝ) (l : List Nat), 1 ≤ W.nc → y.length = W.nr → goStd y ≠ 0 →
    X.nr = W.nr → X.nc = W.nc + 1 → (∀ c < W.nc, ∀ r < W.nr, X.get r c = .fin (W.get r c)) → Gap X W.nc →
    found X (y.map .fin) = some l →
    found (finMat W) (y.map .fin) = some (l.filter (fun j => decide (j < W.nc)))

/-! ### Normalised columns -/

theorem gap_notFinite {X : Mat (Fl ℝ)} {c : Nat} (h : Gap X c) : NotFinite (colOf X c) := by
  obtain ⟨r, hr, h⟩ := h
  exact ⟨X.get r c, List.mem_map.2 ⟨r, List.mem_range.2 hr, rfl⟩, h⟩

theorem stdFl_gap {v : List (Fl ℝ)} (hv : NotFinite v) (h : 2 ≤ v.length) : stdFl v = .nan := by
  obtain ⟨x, hx, hn⟩ := sub_mean_nan hv
  unfold stdFl
  rw [if_neg (by omega)]
  simp only
  have : Fl.sum (v.map (fun x => Fl.mul (Fl.sub x (meanFl v)) (Fl.sub x (meanFl v)))) = .nan :=
    Fl.sum_nan (List.mem_map.2 ⟨x, hx, by rw [hn]; rfl⟩)
  rw [this, Fl.nan_div]
  rfl

open Classical in
/-- A value of a column of numbers after normalisation. -/
noncomputable def normValue (w : List ℝ) (x : ℝ) : ℝ := (x - goMean w) / (if goStd w < 1 / 10 ^ 10 then 1 else goStd w)

/-- What is known about normalised data. -/
structure NormalisedFl (X Z : Mat (Fl ℝ)) : Prop where
  nr : Z.nr = X.nr
  nc : Z.nc = X.nc
  gap : 2 ≤ X.nr → ∀ c < X.nc, Gap X c → ∀ r, Z.get r c = .nan
  fin : ∀ (c : Nat) (v : Nat → ℝ), (∀ r < X.nr, X.get r c = .fin (v r)) →
    (∀ r < X.nr, Z.get r c = .fin (normValue ((List.range X.nr).map v) (v r))) ∧
      (c < X.nc → c ≠ 0 → ∃ r < X.nr, normValue ((List.range X.nr).map v) (v r) ≠ 0)

theorem colOf_fin {X : Mat (Fl ℝ)} {c : Nat} {v : Nat → ℝ} (hv : ∀ r < X.nr, X.get r c = .fin (v r)) :
    colOf X c = ((List.range X.nr).map v).map .fin := by
  unfold colOf
  rw [List.map_map]
  exact List.map_congr_left fun r hr => hv r (List.mem_range.1 hr)

theorem normalised_of {X Z : Mat (Fl ℝ)} (h : normalizedMatrixFl X = some Z) : NormalisedFl X Z := by
  unfold normalizedMatrixFl at h
  split at h
  · exact absurd h (by simp)
  rename_i hno
  obtain rfl := Option.some.inj h
  refine ⟨rfl, rfl, fun h2 c hc hg r => ?_, fun c v hv => ?_⟩
  · have hs := stdFl_gap (gap_notFinite hg) (by simp [colOf]; exact h2)
    simp only [hs]
    rw [if_neg (Fl.nan_not_lt _), Fl.div_nan]
  · have hcol := colOf_fin hv
    set w := (List.range X.nr).map v with hw
    have hs : stdFl (colOf X c) = .fin (goStd w) := by rw [hcol, stdFl_fin]
    by_cases hz : X.nr = 0
    · refine ⟨fun r hr => absurd hr (by omega), fun hc h0 => ?_⟩
      exfalso
      apply hno
      refine ⟨c, hc, h0, ?_⟩
      rw [hs]
      have : w = [] := by rw [hw, hz]; rfl
      rw [this]
      exact Fl.lt_fin.2 (by norm_num [goStd])
    have hwne : w ≠ [] := by
      intro e
      have := congrArg List.length e
      simp [hw] at this
      exact hz this
    have hm : meanFl (colOf X c) = .fin (goMean w) := by rw [hcol, meanFl_fin hwne]
    classical
    set t : ℝ := if goStd w < 1 / 10 ^ 10 then 1 else goStd w with ht
    have ht0 : t ≠ 0 := by
      rw [ht]
      split
      · exact one_ne_zero
      · rename_i hge
        have : (0 : ℝ) < 1 / 10 ^ 10 := by positivity
        linarith [not_lt.1 hge]
    have htf : (if stdFl (colOf X c) < Fl.fin (1 / 10 ^ 10) then Fl.fin 1 else stdFl (colOf X c)) = Fl.fin t := by
      rw [hs, ht]
      by_cases hlt : goStd w < 1 / 10 ^ 10
      · rw [if_pos (Fl.lt_fin.2 hlt), if_pos hlt]
      · rw [if_neg (fun h' => hlt (Fl.lt_fin.1 h')), if_neg hlt]
    have hnv : ∀ x, normValue w x = (x - goMean w) / t := fun x => by
      rw [normValue, ht]
    refine ⟨fun r hr => ?_, fun hc h0 => ?_⟩
    · simp only [htf, hm, hv r hr, Fl.sub_fin, Fl.div_fin ht0, hnv]
    · by_contra hall
      push Not at hall
      apply hno
      refine ⟨c, hc, h0, ?_⟩
      rw [hs]
      have hzero : ∀ x ∈ w, x - goMean w = 0 := by
        intro x hx
        obtain ⟨r, hr, rfl⟩ := List.mem_map.1 hx
        have := hall r (List.mem_range.1 hr)
        rwa [hnv, div_eq_zero_iff, or_iff_left ht0] at this
      have hstd : goStd w = 0 := by
        unfold goStd
        split
        · rfl
        · simp only []
          rw [foldl_sq]
          have : (w.map (fun x => (x - goMean w) * (x - goMean w))).sum = 0 := by
            refine List.sum_eq_zero ?_
            intro a ha
            obtain ⟨x, hx, rfl⟩ := List.mem_map.1 ha
            rw [hzero x hx, mul_zero]
          simp [this]
      rw [hstd]
      exact Fl.lt_fin.2 (by positivity)

theorem rows_of {X Z : Mat (Fl ℝ)} (h : normalizedMatrixFl X = some Z) (hc : 1 < X.nc) : 2 ≤ X.nr := by
  by_contra hr
  unfold normalizedMatrixFl at h
  rw [if_pos] at h
  · exact absurd h (by simp)
  · refine ⟨1, hc, one_ne_zero, ?_⟩
    unfold stdFl
    rw [if_pos (by simp [colOf]; omega)]
    exact Fl.lt_fin.2 (by positivity)

/-- Every column after the first has a value other than 0. -/
theorem column_nonzero {X Z : Mat (Fl ℝ)} (h : normalizedMatrixFl X = some Z) {c : Nat} (h1 : 1 ≤ c) (hc : c < X.nc) :
    ∃ r < X.nr, Z.get r c ≠ .fin 0 := by
  have hn := normalised_of h
  have h2 := rows_of h (by omega)
  by_cases hg : Gap X c
  · exact ⟨0, by omega, by rw [hn.gap h2 c hc hg 0]; simp⟩
  · have : ∀ r, ∃ a, r < X.nr → X.get r c = .fin a := by
      intro r
      by_cases hr : r < X.nr
      · by_contra hcon
        push Not at hcon
        exact hg ⟨r, hr, fun a => (hcon a).2⟩
      · exact ⟨0, fun h' => absurd h' hr⟩
    choose v hv using this
    obtain ⟨hz, h0⟩ := hn.fin c v hv
    obtain ⟨r, hr, hne⟩ := h0 hc (by omega)
    exact ⟨r, hr, by rw [hz r hr]; simpa using hne⟩

/-! ### The response -/

theorem response_fin {y : List ℝ} (hs : goStd y ≠ 0) {r : Nat} (hr : r < y.length) :
    (normalizedResponse (y.map .fin)).getD r .nan = .fin ((y.getD r 0 - goMean y) / goStd y) := by
  rw [normalizedResponse_fin]
  simp only [List.getD_eq_getElem?_getD, List.getElem?_map, List.getElem?_eq_getElem hr, Option.map_some,
    Option.getD_some]
  unfold Fl.divFin
  rw [if_neg hs]

theorem response_nonzero {y : List ℝ} (hs : goStd y ≠ 0) : ∃ r < y.length, (y.getD r 0 - goMean y) / goStd y ≠ 0 := by
  by_contra hall
  push Not at hall
  apply hs
  unfold goStd
  split
  · rfl
  · simp only []
    rw [foldl_sq]
    have : (y.map (fun x => (x - goMean y) * (x - goMean y))).sum = 0 := by
      refine List.sum_eq_zero ?_
      intro a ha
      obtain ⟨x, hx, rfl⟩ := List.mem_map.1 ha
      obtain ⟨r, hr, rfl⟩ := List.getElem_of_mem hx
      have := hall r hr
      rw [div_eq_zero_iff, or_iff_left hs, List.getD_eq_getElem?_getD, List.getElem?_eq_getElem hr,
        Option.getD_some] at this
      rw [this, mul_zero]
    simp [this]

theorem response_gap {y : List (Fl ℝ)} (hy : NotFinite y) (r : Nat) : (normalizedResponse y).getD r .nan = .nan := by
  rw [normalizedResponse_nan hy, List.getD_eq_getElem?_getD, List.getElem?_replicate]
  split <;> rfl

/-! ### The claim -/

/-- **C141, one missing value in a feature.** With the empirical covariance matrix nothing is found, whatever the
response, the penalty, the correction, and the number of iterations; the warning about convergence is printed. -/
theorem C141_feature {S : Type} (dot : Nat → (Nat → Fl ℝ) → (Nat → Fl ℝ) → Fl ℝ) (hd : GonumDot dot) (X Z : Mat (Fl ℝ))
    (h : normalizedMatrixFl X = some Z) (c : Nat) (hc : c < X.nc) (hg : Gap X c) (y : Nat → Fl ℝ) (lamb tol : Fl ℝ)
    (corr : LassoCorrection (Fl ℝ) S) (s : S) (n : Nat) :
    let r := lassoCrdDescFl ⟨Z.nr, Z.nc, empiricalCovFl dot Z, xTyFl dot Z y, lamb, tol, corr⟩ s n
    selectionFl Z.nc r.1 = [] ∧ r.2 = true := by
  have hn := normalised_of h
  refine lost_result s n Z.nc fun j h1 hj => Or.inr ⟨c, by simp only [empiricalCovFl, hn.nc]; exact hc, ?_⟩
  simp only [hn.nc] at hj
  obtain ⟨r, hr, hne⟩ := column_nonzero h h1 hj
  simp only [empiricalCovFl]
  rw [hd.nan Z.nr _ _ r (by rw [hn.nr]; exact hr) (Or.inr ⟨hn.gap (rows_of h (by omega)) c hc hg r, hne⟩), Fl.mul_nan]

/-- **C141, one missing response.** Nothing is found with any covariance matrix. -/
theorem C141_response {S : Type} (dot : Nat → (Nat → Fl ℝ) → (Nat → Fl ℝ) → Fl ℝ) (hd : GonumDot dot) (X Z : Mat (Fl ℝ))
    (h : normalizedMatrixFl X = some Z) (y : List (Fl ℝ)) (hy : NotFinite y) (cov : Mat (Fl ℝ)) (lamb tol : Fl ℝ)
    (corr : LassoCorrection (Fl ℝ) S) (s : S) (n : Nat) :
    let r := lassoCrdDescFl ⟨Z.nr, Z.nc, cov, xTyFl dot Z (fun r => (normalizedResponse y).getD r .nan), lamb, tol, corr⟩
      s n
    selectionFl Z.nc r.1 = [] ∧ r.2 = true := by
  have hn := normalised_of h
  refine lost_result s n Z.nc fun j h1 hj => Or.inl ?_
  simp only [hn.nc] at hj
  obtain ⟨r, hr, hne⟩ := column_nonzero h h1 hj
  exact hd.nan Z.nr _ _ r (by rw [hn.nr]; exact hr) (Or.inr ⟨response_gap hy r, hne⟩)

/-- Normalised data without missing values. -/
noncomputable def normMat (X : Mat ℝ) : Mat ℝ := ⟨X.nr, X.nc, fun r c => normValue (colOf X c) (X.get r c)⟩

/-- The normalised response. -/
noncomputable def normResponse (y : List ℝ) (r : Nat) : ℝ := (y.getD r 0 - goMean y) / goStd y

/-- **C141, no missing value.** The coefficients are those of the algorithm for numbers. -/
theorem C141_finite (dot : Nat → (Nat → Fl ℝ) → (Nat → Fl ℝ) → Fl ℝ) (hd : GonumDot dot) (X : Mat ℝ) (Z : Mat (Fl ℝ))
    (h : normalizedMatrixFl (finMat X) = some Z) (y : List ℝ) (hl : y.length = X.nr) (hs : goStd y ≠ 0) (lamb tol : ℝ)
    (hlam : 0 ≤ lamb) (n : Nat) :
    let p := lassoProblem (normMat X) (normResponse y) lamb tol pureLasso
    lassoCrdDescFl ⟨Z.nr, Z.nc, empiricalCovFl dot Z,
        xTyFl dot Z (fun r => (normalizedResponse (y.map .fin)).getD r .nan), .fin lamb, .fin tol, pureLassoFl⟩ () n =
      (fun j => .fin ((cdLoop p n (cdInit p ())).1.beta j), lassoWarns p () n) := by
  intro p
  have hn := normalised_of h
  have hnr : Z.nr = X.nr := hn.nr
  have hnc : Z.nc = X.nc := hn.nc
  have hz : ∀ c, ∀ r < X.nr, Z.get r c = .fin ((normMat X).get r c) := fun c => (hn.fin c (fun r => X.get r c) fun _ _ => rfl).1
  have hpos : 0 < X.nr := by
    by_contra h0
    have : y = [] := List.eq_nil_of_length_eq_zero (by omega)
    rw [this] at hs
    exact hs (by simp [goStd])
  have hcov : ∀ i j, (empiricalCovFl dot Z).get i j = .fin ((empiricalCov (normMat X)).get i j) := by
    intro i j
    simp only [empiricalCovFl, empiricalCov, hnr]
    rw [hd.fin X.nr _ _ (fun r => (normMat X).get r i) (fun r => (normMat X).get r j) (hz i) (hz j),
      Fl.div_fin (by exact_mod_cast hpos.ne')]
    rfl
  have hL : Lifted (fun _ => False) p ⟨Z.nr, Z.nc, empiricalCovFl dot Z,
      xTyFl dot Z (fun r => (normalizedResponse (y.map .fin)).getD r .nan), .fin lamb, .fin tol, pureLassoFl⟩ := by
    refine ⟨hnr, hpos, hnc, hnc, hcov, fun j h1 hj => ?_, rfl, hlam, rfl, rfl, rfl, fun j _ _ => ?_, fun j hf => hf.elim⟩
    · obtain ⟨r, hr, hne⟩ := (hn.fin j (fun r => X.get r j) fun _ _ => rfl).2 hj (by omega)
      have h2 : 0 < ∑ r ∈ range X.nr, (normMat X).get r j * (normMat X).get r j :=
        Finset.sum_pos' (fun i _ => mul_self_nonneg _) ⟨r, Finset.mem_range.2 hr, mul_self_pos.2 hne⟩
      have h3 : (0 : ℝ) < X.nr := by exact_mod_cast hpos
      exact (mul_pos (one_div_pos.2 h3) h2).ne'
    · simp only [xTyFl, hnr]
      rw [hd.fin X.nr _ _ (fun r => (normMat X).get r j) (normResponse y) (hz j)
        (fun r hr => response_fin hs (by omega))]
      rfl
  unfold lassoCrdDescFl
  simp only [lifted_result hL n]
  rfl

open Classical in
/-- The problem of the features without gaps. -/
noncomputable def gapFree (X : Mat (Fl ℝ)) (v : Nat → Nat → ℝ) (y : List ℝ) (lamb tol : ℝ) : CDProblem ℝ Unit where
  nr := X.nr
  nFeat := X.nc
  cov := ⟨X.nc, X.nc, fun i j => if i = j then 1 else 0⟩
  XTy := fun j => if j < X.nc ∧ Gap X j then 0
    else ∑ r ∈ range X.nr, normValue ((List.range X.nr).map (v j)) (v j r) * normResponse y r
  lamb := lamb
  tol := tol
  corr := pureLasso

theorem gapFree_lifted (dot : Nat → (Nat → Fl ℝ) → (Nat → Fl ℝ) → Fl ℝ) (hd : GonumDot dot) (X Z : Mat (Fl ℝ))
    (h : normalizedMatrixFl X = some Z) (v : Nat → Nat → ℝ)
    (hv : ∀ c < X.nc, ¬ Gap X c → ∀ r < X.nr, X.get r c = .fin (v c r)) (y : List ℝ) (hl : y.length = X.nr)
    (hs : goStd y ≠ 0) (lamb tol : ℝ) (hlam : 0 ≤ lamb) :
    Lifted (fun j => j < X.nc ∧ Gap X j) (gapFree X v y lamb tol) ⟨Z.nr, Z.nc, identityCovFl Z,
      xTyFl dot Z (fun r => (normalizedResponse (y.map .fin)).getD r .nan), .fin lamb, .fin tol, pureLassoFl⟩ := by
  have hn := normalised_of h
  have h2 : 2 ≤ X.nr := by
    by_contra h0
    apply hs
    unfold goStd
    rw [if_pos (by omega)]
  refine ⟨hn.nr, by show 0 < X.nr; omega, hn.nc, hn.nc, fun i j => ?_, fun j _ _ => by simp [gapFree], rfl, hlam, rfl, rfl,
    rfl, fun j hj hN => ?_, fun j hN => ⟨?_, ?_, fun i hi => by simp [gapFree, hi.symm]⟩⟩
  · simp only [identityCovFl, gapFree]
    split <;> rfl
  · have hg : ¬ Gap X j := fun hg => hN ⟨hj, hg⟩
    simp only [xTyFl, hn.nr, gapFree, if_neg hN]
    exact hd.fin X.nr _ _ _ _ (hn.fin j (v j) (hv j hj hg)).1 (fun r hr => response_fin hs (by omega))
  · obtain ⟨r, hr, hne⟩ := response_nonzero hs
    simp only [xTyFl, hn.nr]
    refine hd.nan X.nr _ _ r (by omega) (Or.inl ⟨hn.gap h2 j hN.1 hN.2 r, ?_⟩)
    rw [response_fin hs hr]
    simpa using hne
  · simp only [gapFree, if_pos hN]

/-- **C141, identity covariance matrix.** After at least one iteration a feature without gaps has the coefficient it has
on its own, and a feature with gaps has coefficient 0. -/
theorem C141_identity (dot : Nat → (Nat → Fl ℝ) → (Nat → Fl ℝ) → Fl ℝ) (hd : GonumDot dot) (X Z : Mat (Fl ℝ))
    (h : normalizedMatrixFl X = some Z) (v : Nat → Nat → ℝ)
    (hv : ∀ c < X.nc, ¬ Gap X c → ∀ r < X.nr, X.get r c = .fin (v c r)) (y : List ℝ) (hl : y.length = X.nr)
    (hs : goStd y ≠ 0) (lamb tol : ℝ) (hlam : 0 ≤ lamb) (n : Nat) (j : Nat) (h1 : 1 ≤ j) (hj : j < X.nc) :
    let b := (lassoCrdDescFl ⟨Z.nr, Z.nc, identityCovFl Z,
      xTyFl dot Z (fun r => (normalizedResponse (y.map .fin)).getD r .nan), .fin lamb, .fin tol, pureLassoFl⟩ ()
      (n + 1)).1
    (Gap X j → b j = .fin 0) ∧
      (¬ Gap X j → b j = .fin (softThreshold
        ((∑ r ∈ range X.nr, normValue ((List.range X.nr).map (v j)) (v j r) * normResponse y r) / X.nr) lamb)) := by
  intro b
  have hL := gapFree_lifted dot hd X Z h v hv y hl hs lamb tol hlam
  have hb : b j = .fin (idCoeff (gapFree X v y lamb tol) j) := by
    simp only [b, lassoCrdDescFl, lifted_result hL (n + 1)]
    have hI : IdProblem (gapFree X v y lamb tol) := ⟨fun _ _ => rfl, rfl⟩
    simp only [liftState, cdLoop_id_pos hI n j h1 hj]
  rw [hb]
  refine ⟨fun hg => ?_, fun hg => ?_⟩
  · simp only [idCoeff, gapFree, if_pos (And.intro hj hg), zero_div]
    simp [softThreshold, not_lt.2 hlam]
  · have : ¬ (j < X.nc ∧ Gap X j) := fun h' => hg h'.2
    simp only [idCoeff, gapFree, if_neg this]

theorem colOf_known {W : Mat ℝ} {X : Mat (Fl ℝ)} (hnr : X.nr = W.nr)
    (hW : ∀ c < W.nc, ∀ r < W.nr, X.get r c = .fin (W.get r c)) {c : Nat} (hc : c < W.nc) :
    colOf (finMat W) c = colOf X c := by
  unfold colOf finMat
  rw [hnr]
  exact List.map_congr_left fun r hr => (hW c hc r (List.mem_range.1 hr)).symm

/-- The other features are unaffected by the last one. -/
theorem C141_identity_partial (dot : Nat → (Nat → Fl ℝ) → (Nat → Fl ℝ) → Fl ℝ) (hd : GonumDot dot) (lamb tol : ℝ)
    (hlam : 0 ≤ lamb) (n : Nat) : KeepsOthers (lassoFeaturesFl dot identityCovFl lamb tol n) := by
  intro W X y l h1 hl hs hnr hnc hW hg hf
  unfold lassoFeaturesFl at hf ⊢
  rw [Option.map_eq_some_iff] at hf
  obtain ⟨Z, hZ, hl'⟩ := hf
  have hn := normalised_of hZ
  obtain ⟨Z', hZ'⟩ : ∃ Z', normalizedMatrixFl (finMat W) = some Z' := by
    unfold normalizedMatrixFl at hZ ⊢
    split at hZ
    · exact absurd hZ (by simp)
    · rename_i hno
      rw [if_neg]
      · exact ⟨_, rfl⟩
      · rintro ⟨c, hc, h0, hlt⟩
        rw [colOf_known hnr hW hc] at hlt
        have hc' : c < W.nc := hc
        exact hno ⟨c, by omega, h0, hlt⟩
  have hn' := normalised_of hZ'
  rw [hZ', Option.map_some]
  congr 1
  rw [← hl']
  have hgap : ∀ c, c < W.nc → ¬ Gap X c := by
    rintro c hc ⟨r, hr, h⟩
    exact h _ (hW c hc r (hnr ▸ hr))
  have hgap' : ∀ c, ¬ Gap (finMat W) c := by
    rintro c ⟨r, hr, h⟩
    exact h _ rfl
  have hv1 : ∀ c < X.nc, ¬ Gap X c → ∀ r < X.nr, X.get r c = .fin (W.get r c) := by
    intro c hc hnot r hr
    refine hW c ?_ r (hnr ▸ hr)
    by_contra hge
    have : c = W.nc := by omega
    exact hnot (this ▸ hg)
  have hl1 : y.length = X.nr := by rw [hl, hnr]
  have hL1 := gapFree_lifted dot hd X Z hZ (fun c r => W.get r c) hv1 y hl1 hs lamb tol hlam
  have hL2 := gapFree_lifted dot hd (finMat W) Z' hZ' (fun c r => W.get r c) (fun _ _ _ _ _ => rfl) y hl hs lamb tol hlam
  have hnc' : Z'.nc = W.nc := hn'.nc
  have key : ∀ j < W.nc, (lassoCrdDescFl ⟨Z'.nr, Z'.nc, identityCovFl Z',
      xTyFl dot Z' (fun r => (normalizedResponse (y.map .fin)).getD r .nan), .fin lamb, .fin tol,
      pureLassoFl⟩ () n).1 j = (lassoCrdDescFl ⟨Z.nr, Z.nc, identityCovFl Z,
      xTyFl dot Z (fun r => (normalizedResponse (y.map .fin)).getD r .nan), .fin lamb, .fin tol,
      pureLassoFl⟩ () n).1 j := by
    intro j hj
    by_cases h0 : j = 0
    · subst h0
      simp only [lassoCrdDescFl, lifted_result hL1 n, lifted_result hL2 n, liftState, cdLoop_zero]
    · cases n with
      | zero => rfl
      | succ n =>
        rw [(C141_identity dot hd X Z hZ (fun c r => W.get r c) hv1 y hl1 hs lamb tol hlam n j (by omega) (by omega)).2
            (hgap j hj),
          (C141_identity dot hd (finMat W) Z' hZ' (fun c r => W.get r c) (fun _ _ _ _ _ => rfl) y hl hs lamb tol hlam n j
            (by omega) hj).2 (hgap' j), hnr]
        rfl
  set b := (lassoCrdDescFl ⟨Z.nr, Z.nc, identityCovFl Z,
      xTyFl dot Z (fun r => (normalizedResponse (y.map .fin)).getD r .nan), .fin lamb, .fin tol,
      pureLassoFl⟩ () n).1
  unfold selectionFl
  rw [hn.nc, hnc, hnc', List.range_succ, List.filter_append, List.filter_append, List.filter_filter, List.filter_filter]
  have hlast : List.filter (fun a => decide (a < W.nc) && nonzeroFl (b a)) [W.nc] = [] := by
    simp
  rw [hlast, List.append_nil]
  refine List.filter_congr fun j hj => ?_
  have hjm := List.mem_range.1 hj
  rw [← hnc', key j hjm]
  simp [hnc', hjm]

/-! ### The counterexample -/

namespace Missing

/-- Three rows; feature 1 is the response. -/
noncomputable def known : Mat ℝ := ⟨3, 2, fun r c => if c = 0 then 1 else 1 - r⟩

/-- A further feature with a missing value. -/
noncomputable def raw : Mat (Fl ℝ) :=
  ⟨3, 3, fun r c => if c < 2 then .fin (known.get r c) else if r = 0 then .nan else .fin r⟩

noncomputable def resp : List ℝ := [1, 0, -1]

theorem resp_stat : goMean resp = 0 ∧ goStd resp = 1 := by
  have hm : goMean resp = 0 := by norm_num [goMean, resp]
  refine ⟨hm, ?_⟩
  unfold goStd
  rw [if_neg (by simp [resp])]
  simp only [hm]
  norm_num [resp]

theorem col_one : colOf known 1 = resp := by
  norm_num [colOf, known, resp, List.range_succ]

theorem raw_gap : Gap raw 2 := ⟨0, by decide, fun a => by simp [raw]⟩

theorem std_one : stdFl (colOf raw 1) = .fin 1 := by
  have : colOf raw 1 = resp.map .fin := by
    rw [← col_one]
    simp [colOf, raw, List.range_succ, known]
  rw [this, stdFl_fin, resp_stat.2]

theorem raw_ok : ∃ Z, normalizedMatrixFl raw = some Z := by
  unfold normalizedMatrixFl
  rw [if_neg]
  · exact ⟨_, rfl⟩
  · rintro ⟨c, hc, h0, hlt⟩
    have hc' : c < 3 := hc
    obtain rfl | rfl : c = 1 ∨ c = 2 := by omega
    · rw [std_one] at hlt
      have := Fl.lt_fin.1 hlt
      norm_num at this
    · rw [stdFl_gap (gap_notFinite raw_gap) (by simp [colOf, raw])] at hlt
      exact Fl.nan_not_lt _ hlt

theorem known_ok : ∃ Z, normalizedMatrixFl (finMat known) = some Z := by
  unfold normalizedMatrixFl
  rw [if_neg]
  · exact ⟨_, rfl⟩
  · rintro ⟨c, hc, h0, hlt⟩
    have hc' : c < 2 := hc
    obtain rfl : c = 1 := by omega
    rw [show colOf (finMat known) 1 = (colOf known 1).map .fin by simp [colOf, finMat], col_one, stdFl_fin,
      resp_stat.2] at hlt
    have := Fl.lt_fin.1 hlt
    norm_num at this

theorem norm_one (r : Nat) : (normMat known).get r 1 = 1 - r := by
  simp only [normMat, col_one, normValue, resp_stat]
  norm_num [known]

/-- After one sweep. -/
theorem beta_one (tol : ℝ) :
    (cdLoop (lassoProblem (normMat known) (normResponse resp) (1 / 3) tol pureLasso) 1
      (cdInit (lassoProblem (normMat known) (normResponse resp) (1 / 3) tol pureLasso) ())).1.beta 1 = 1 / 2 := by
  set p := lassoProblem (normMat known) (normResponse resp) (1 / 3) tol pureLasso with hp
  have hb : (cdLoop p 1 (cdInit p ())).1.beta = (cdSweep p (cdInit p ())).beta := by
    rw [cdLoop]
    split
    · rename_i st' he
      have := (cdIter_shape p (cdInit p ())).1
      rw [he] at this
      exact this
    · rename_i st' he
      have := (cdIter_shape p (cdInit p ())).1
      rw [he] at this
      rw [cdLoop]
      exact this
  have hi : (cdInit p ()).iterIndices = [1] := rfl
  rw [hb, cdSweep, hi, List.foldl_cons, List.foldl_nil]
  have hx : p.XTy 1 = 2 := by
    simp only [hp, lassoProblem, xTy, norm_one, normResponse, resp_stat]
    norm_num [normMat, known, resp, Finset.sum_range_succ]
  have hc : p.cov.get 1 1 = 2 / 3 := by
    simp only [hp, lassoProblem, empiricalCov, norm_one]
    norm_num [normMat, known, Finset.sum_range_succ]
  have hn : (p.nr : ℝ) = 3 := by norm_num [hp, lassoProblem, normMat, known]
  have hl : p.lamb = 1 / 3 := rfl
  have hk : p.corr = pureLasso := rfl
  have hd : (cdInit p ()).covDotBeta 1 = 0 := by simp [cdInit, mulSlice]
  have ho : (cdInit p ()).betaOld 1 = 0 := rfl
  simp only [cdCoord, Function.update_self, hx, hc, hn, hl, hk, hd, ho, pureLasso, softThreshold]
  norm_num

end Missing

/-- **C141 is false in general**: with the empirical covariance matrix a feature that equals the response is found in the
data without the gap, and not in the data with it. -/
theorem C141_refuted (dot : Nat → (Nat → Fl ℝ) → (Nat → Fl ℝ) → Fl ℝ) (hd : GonumDot dot) (tol : ℝ) :
    ¬ KeepsOthers (lassoFeaturesFl dot (empiricalCovFl dot) (1 / 3) tol 1) := by
  intro h
  obtain ⟨Z, hZ⟩ := Missing.raw_ok
  obtain ⟨Z', hZ'⟩ := Missing.known_ok
  have hs : goStd Missing.resp ≠ 0 := by rw [Missing.resp_stat.2]; exact one_ne_zero
  have h1 : lassoFeaturesFl dot (empiricalCovFl dot) (1 / 3) tol 1 Missing.raw (Missing.resp.map .fin) = some [] := by
    unfold lassoFeaturesFl
    rw [hZ, Option.map_some]
    exact congrArg some (C141_feature dot hd Missing.raw Z hZ 2 (by decide) Missing.raw_gap _ _ _ _ _ _).1
  have h2 := h Missing.known Missing.raw Missing.resp [] (by decide) rfl hs rfl rfl
    (fun c hc r _ => if_pos hc) Missing.raw_gap h1
  unfold lassoFeaturesFl at h2
  rw [hZ', Option.map_some, C141_finite dot hd Missing.known Z' hZ' Missing.resp rfl hs (1 / 3) tol (by norm_num) 1] at h2
  have hmem : 1 ∈ selectionFl Z'.nc (fun j => Fl.fin ((cdLoop
      (lassoProblem (normMat Missing.known) (normResponse Missing.resp) (1 / 3) tol pureLasso) 1
      (cdInit (lassoProblem (normMat Missing.known) (normResponse Missing.resp) (1 / 3) tol pureLasso) ())).1.beta j)) := by
    refine List.mem_filter.2 ⟨List.mem_range.2 ?_, ?_⟩
    · have : Z'.nc = 2 := (normalised_of hZ').nc
      omega
    · rw [nonzeroFl_fin, Missing.beta_one]
      norm_num [lassoCrdDescZero]
  rw [Option.some.inj h2] at hmem
  simp at hmem

theorem sum_listRange (f : Nat → ℝ) (n : Nat) : ((List.range n).map f).sum = ∑ r ∈ range n, f r := by
  induction n with
  | zero => rfl
  | succ n ih => rw [List.range_succ, List.map_append, List.sum_append, ih, Finset.sum_range_succ]; simp

/-- The plain sum of products meets the assumption about inner products. -/
theorem plainDot_ok : GonumDot (fun n x z => Fl.sum ((List.range n).map (fun r => Fl.mul (x r) (z r)))) := by
  refine ⟨fun n x z a b hx hz => ?_, fun n x z r hr h => ?_⟩
  · have : (List.range n).map (fun r => Fl.mul (x r) (z r)) = ((List.range n).map (fun r => a r * b r)).map Fl.fin := by
      rw [List.map_map]
      refine List.map_congr_left fun r hr => ?_
      rw [hx r (List.mem_range.1 hr), hz r (List.mem_range.1 hr)]
      rfl
    show Fl.sum _ = _
    rw [this, Fl.sum_fin, sum_listRange]
  · refine Fl.sum_nan (List.mem_map.2 ⟨r, List.mem_range.2 hr, ?_⟩)
    rcases h with ⟨h, -⟩ | ⟨h, -⟩
    · rw [h, Fl.nan_mul]
    · rw [h, Fl.mul_nan]

open Classical in
/-- So does a sum that leaves out the products with 0. -/
theorem skipDot_ok : GonumDot (fun n x z => Fl.sum (((List.range n).filter (fun r => decide (x r ≠ .fin 0))).map
    (fun r => Fl.mul (x r) (z r)))) := by
  refine ⟨fun n x z a b hx hz => ?_, fun n x z r hr h => ?_⟩
  · have key : ∀ l : List Nat, (∀ r ∈ l, r < n) → Fl.sum ((l.filter (fun r => decide (x r ≠ .fin 0))).map
        (fun r => Fl.mul (x r) (z r))) = .fin (l.map (fun r => a r * b r)).sum := by
      intro l hl
      have h1 : (l.filter (fun r => decide (x r ≠ .fin 0))).map (fun r => Fl.mul (x r) (z r)) =
          ((l.filter (fun r => decide (x r ≠ .fin 0))).map (fun r => a r * b r)).map Fl.fin := by
        rw [List.map_map]
        refine List.map_congr_left fun r hr => ?_
        have := hl r (List.mem_filter.1 hr).1
        rw [hx r this, hz r this]
        rfl
      rw [h1, Fl.sum_fin]
      congr 1
      clear h1
      induction l with
      | nil => rfl
      | cons r l ih =>
        have ih' := ih fun r hr => hl r (List.mem_cons_of_mem _ hr)
        have hr := hx r (hl r (List.mem_cons_self ..))
        by_cases h0 : a r = 0
        · rw [List.filter_cons_of_neg (by simp [hr, h0]), List.map_cons, List.sum_cons, h0, zero_mul, zero_add, ih']
        · rw [List.filter_cons_of_pos (by simp [hr, h0]), List.map_cons, List.map_cons, List.sum_cons, List.sum_cons, ih']
    show Fl.sum _ = _
    rw [key _ fun r hr => List.mem_range.1 hr, sum_listRange]
  · have hx : x r ≠ .fin 0 := by
      rcases h with ⟨h, -⟩ | ⟨-, h⟩
      · rw [h]; simp
      · exact h
    refine Fl.sum_nan (List.mem_map.2 ⟨r, List.mem_filter.2 ⟨List.mem_range.2 hr, by simpa using hx⟩, ?_⟩)
    rcases h with ⟨h, -⟩ | ⟨h, -⟩
    · rw [h, Fl.nan_mul]
    · rw [h, Fl.mul_nan]

/-- The data of the counterexample: nothing is found with the empirical covariance matrix. -/
example (lamb tol : ℝ) (n : Nat) :
    lassoFeaturesFl (fun n x z => Fl.sum ((List.range n).map (fun r => Fl.mul (x r) (z r))))
      (empiricalCovFl (fun n x z => Fl.sum ((List.range n).map (fun r => Fl.mul (x r) (z r))))) lamb tol n Missing.raw
      (Missing.resp.map .fin) = some [] := by
  obtain ⟨Z, hZ⟩ := Missing.raw_ok
  unfold lassoFeaturesFl
  rw [hZ, Option.map_some]
  exact congrArg some (C141_feature _ plainDot_ok Missing.raw Z hZ 2 (by decide) Missing.raw_gap _ _ _ _ _ _).1

/-- With the identity matrix the feature that equals the response is found. -/
example (tol : ℝ) (n : Nat) : ∃ l,
    lassoFeaturesFl (fun n x z => Fl.sum ((List.range n).map (fun r => Fl.mul (x r) (z r)))) identityCovFl (1 / 3) tol
      (n + 1) Missing.raw (Missing.resp.map .fin) = some l ∧ 1 ∈ l ∧ 2 ∉ l := by
  obtain ⟨Z, hZ⟩ := Missing.raw_ok
  have hs : goStd Missing.resp ≠ 0 := by rw [Missing.resp_stat.2]; exact one_ne_zero
  have hv : ∀ c < Missing.raw.nc, ¬ Gap Missing.raw c → ∀ r < Missing.raw.nr,
      Missing.raw.get r c = .fin (Missing.known.get r c) := by
    intro c hc hg r _
    refine if_pos ?_
    by_contra h2
    have hc' : c < 3 := hc
    have : c = 2 := by omega
    exact hg (this ▸ Missing.raw_gap)
  have hnc : Z.nc = 3 := (normalised_of hZ).nc
  have hid := fun j h1 hj => C141_identity _ plainDot_ok Missing.raw Z hZ (fun c r => Missing.known.get r c) hv
    Missing.resp rfl hs (1 / 3) tol (by norm_num) n j h1 hj
  refine ⟨_, by unfold lassoFeaturesFl; rw [hZ, Option.map_some], ?_, ?_⟩
  · refine List.mem_filter.2 ⟨List.mem_range.2 (by omega), ?_⟩
    rw [(hid 1 le_rfl (by decide)).2 (by rintro ⟨r, -, h⟩; exact h (Missing.known.get r 1) (by simp [Missing.raw])), nonzeroFl_fin]
    have hcol : (List.range Missing.raw.nr).map (fun r => Missing.known.get r 1) = Missing.resp := Missing.col_one
    simp only [hcol, normValue, normResponse, Missing.resp_stat, softThreshold]
    norm_num [Missing.raw, Missing.known, Missing.resp, Finset.sum_range_succ, lassoCrdDescZero]
  · intro h
    have := (List.mem_filter.1 h).2
    rw [(hid 2 (by decide) (by decide)).1 Missing.raw_gap, nonzeroFl_fin] at this
    norm_num [lassoCrdDescZero] at this

end GoSelect
