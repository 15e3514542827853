import Verif.Props.C64

/-! One iteration of LARS in terms of events: joining and crossing times. -/

namespace GoSelect

open Finset Spec

namespace Spec

variable {K : Type} [Field K] [LinearOrder K]

/-- At regularisation `t` feature `i` joins or leaves: the correlation of an inactive feature has size `t`, the
coefficient of an active feature is 0.  `C - t D` are the coefficients at `t`. -/
def LarsEvent (X : Mat K) (y : Nat → K) (E : List Nat) (C D : Nat → K) (i : Nat) (t : K) : Prop :=
  i < X.nc ∧ (i ∉ E ∧ |correlation X y (fun j => C j - t * D j) i| = t ∨ i ∈ E ∧ D i ≠ 0 ∧ C i = t * D i)

/-- The iteration at regularisation `l` is not degenerate: active columns are independent, correlations do not
reach their bound within the tolerance outside `[0, l]`, coefficients do not vanish within the tolerance below
`l`, and below `l` there is never more than one event at a time. -/
structure LarsRegular (X : Mat K) (y : Nat → K) (tol l : K) (E : List Nat) (C D : Nat → K) : Prop where
  indep : Independent X E
  join : ∀ i < X.nc, i ∉ E → ∀ s t, (s = 1 ∨ s = -1) → correlation X y (fun j => C j - t * D j) i = s * t →
    -tol ≤ t → t ≤ l + tol → 0 ≤ t ∧ t ≤ l
  cross : ∀ i ∈ E, ∀ t, D i ≠ 0 → C i = t * D i → l - tol < t → l ≤ t
  ties : ∀ i j t, 0 < t → t < l → LarsEvent X y E C D i t → LarsEvent X y E C D j t → i = j

end Spec

section
variable {K : Type} [Field K] [LinearOrder K]

theorem timeIn_some {lo hi t : K} {f : Fl K} : timeIn lo hi f = some t ↔ f = .fin t ∧ lo ≤ t ∧ t ≤ hi := by
  cases f with
  | fin u =>
    simp only [timeIn, Option.ite_none_right_eq_some, Option.some.injEq, Fl.fin.injEq]
    constructor
    · rintro ⟨h1, rfl⟩; exact ⟨rfl, h1⟩
    · rintro ⟨rfl, h1⟩; exact ⟨h1, rfl⟩
  | _ => simp [timeIn]

theorem divFin_fin {a b t : K} : Fl.divFin a b = .fin t ↔ b ≠ 0 ∧ a / b = t := by
  unfold Fl.divFin
  by_cases h : b = 0
  · simp only [h, if_true, ne_eq, not_true_eq_false, false_and, iff_false]
    split
    · simp
    · split <;> simp
  · simp [h]

variable [IsStrictOrderedRing K]

/-- An accepted joining time is a time at which the correlation reaches the bound. -/
theorem joinTime_spec {tol l a b t : K} {last : Option (Nat × K)} {i : Nat} (htol : tol < 10)
    (h : joinTime tol l last i a b = some t) :
    -tol ≤ t ∧ t ≤ l + tol ∧ ∃ s, (s = 1 ∨ s = -1) ∧ a = t * (s - b) ∧
      ∀ coeff, last = some (i, coeff) → s * coeff ≤ 0 := by
  have hdiv : ∀ s : K, Fl.divFin a (s - b) = .fin t → a = t * (s - b) := by
    intro s hs
    obtain ⟨h1, h2⟩ := divFin_fin.1 hs
    rw [← h2, div_mul_cancel₀ _ h1]
  unfold joinTime at h
  simp only at h
  split at h
  · rename_i t' ht
    simp only [Option.some.injEq] at h
    subst h
    obtain ⟨h1, h2, h3⟩ := timeIn_some.1 ht
    refine ⟨h2, h3, 1, .inl rfl, ?_, ?_⟩
    · cases last with
      | none => exact hdiv 1 h1
      | some p =>
        obtain ⟨f, co⟩ := p
        simp only at h1
        split at h1
        · simp only [Fl.fin.injEq] at h1
          exfalso; linarith
        · exact hdiv 1 h1
    · rintro coeff rfl
      simp only [true_and] at h1
      split at h1
      · simp only [Fl.fin.injEq] at h1
        exfalso; linarith
      · rename_i hn
        linarith [not_lt.1 hn]
  · obtain ⟨h1, h2, h3⟩ := timeIn_some.1 h
    refine ⟨h2, h3, -1, .inr rfl, ?_, ?_⟩
    · cases last with
      | none => exact hdiv (-1) h1
      | some p =>
        obtain ⟨f, co⟩ := p
        simp only at h1
        split at h1
        · simp only [Fl.fin.injEq] at h1
          exfalso; linarith
        · exact hdiv (-1) h1
    · rintro coeff rfl
      simp only [true_and] at h1
      split at h1
      · simp only [Fl.fin.injEq] at h1
        exfalso; linarith
      · rename_i hn
        linarith [not_lt.1 hn]

theorem joinTime_plus {tol l a b : K} {last : Option (Nat × K)} {i : Nat} (htol : 0 ≤ tol) (hb : b ≠ 1)
    (h0 : 0 ≤ a / (1 - b)) (h1 : a / (1 - b) ≤ l) (hl : ∀ coeff, last = some (i, coeff) → coeff ≤ 0) :
    (joinTime tol l last i a b).isSome := by
  have hne : 1 - b ≠ 0 := fun h => hb (by linarith)
  have ht : timeIn (-tol) (l + tol) (Fl.divFin a (1 - b)) = some (a / (1 - b)) :=
    timeIn_some.2 ⟨divFin_fin.2 ⟨hne, rfl⟩, by linarith, by linarith⟩
  unfold joinTime
  cases last with
  | none => simp only [ht, Option.isSome_some]
  | some p =>
    obtain ⟨f, co⟩ := p
    have : ¬ (f = i ∧ co > 0) := by
      rintro ⟨rfl, h⟩
      exact absurd h (not_lt.2 (hl co rfl))
    simp only [if_neg this, ht, Option.isSome_some]

theorem joinTime_minus {tol l a b : K} {last : Option (Nat × K)} {i : Nat} (htol : 0 ≤ tol) (hb : b ≠ -1)
    (h0 : 0 ≤ a / (-1 - b)) (h1 : a / (-1 - b) ≤ l) (hl : ∀ coeff, last = some (i, coeff) → 0 ≤ coeff) :
    (joinTime tol l last i a b).isSome := by
  have hne : -1 - b ≠ 0 := fun h => hb (by linarith)
  have ht : timeIn (-tol) (l + tol) (Fl.divFin a (-1 - b)) = some (a / (-1 - b)) :=
    timeIn_some.2 ⟨divFin_fin.2 ⟨hne, rfl⟩, by linarith, by linarith⟩
  unfold joinTime
  simp only
  split
  · rfl
  · cases last with
    | none => simp only [ht, Option.isSome_some]
    | some p =>
      obtain ⟨f, co⟩ := p
      have : ¬ (f = i ∧ co < 0) := by
        rintro ⟨rfl, h⟩
        exact absurd h (not_lt.2 (hl co rfl))
      simp only [if_neg this, ht, Option.isSome_some]

/-- In a good state every feature has a joining time. -/
theorem good_joinTime {X : Mat K} {y : Nat → K} {l tol : K} {E : List Nat} {sgn : Nat → K}
    {last : Option (Nat × K)} {C D : Nat → K} (htol : 0 ≤ tol) (hl : 0 < l)
    (hsgn : ∀ i ∈ E, sgn i = 1 ∨ sgn i = -1) (heq : LarsEq X y E sgn C D)
    (h : LarsGood X y l E sgn last C D) {i : Nat} (hi : i < X.nc) :
    (joinTime tol l last i (larsXy X y i - gram X C i) (gram X D i)).isSome := by
  by_cases hE : i ∈ E
  · have ha : larsXy X y i - gram X C i = 0 := by rw [heq.eqC i hE, sub_self]
    have hlast : ∀ coeff, last ≠ some (i, coeff) := fun coeff hc => h.out i coeff hc hE
    rw [ha, heq.eqD i hE]
    rcases hsgn i hE with hs | hs
    · rw [hs]
      exact joinTime_minus htol (by norm_num) (by simp) (by simp; linarith) (fun co hc => absurd hc (hlast co))
    · rw [hs]
      exact joinTime_plus htol (by norm_num) (by simp) (by simp; linarith) (fun co hc => absurd hc (hlast co))
  · generalize hA : larsXy X y i - gram X C i = a
    generalize hB : gram X D i = b
    rcases h.inact i hi hE with ⟨hin, hlast⟩ | ⟨coeff, s, h1, h2, h3, h4, h5⟩
    · rw [hA, hB, abs_lt] at hin
      rcases lt_or_ge a 0 with ha | ha
      · have hb : -1 - b < 0 := by nlinarith
        refine joinTime_minus htol (by linarith) (le_of_lt (div_pos_of_neg_of_neg ha hb)) ?_
          (fun co hc => absurd hc (hlast co))
        rw [div_le_iff_of_neg hb]
        linarith
      · have hb : 0 < 1 - b := by nlinarith
        refine joinTime_plus htol (by linarith) (by positivity) ?_ (fun co hc => absurd hc (hlast co))
        rw [div_le_iff₀ hb]
        linarith
    · rw [hA, hB] at h4
      rw [hB] at h5
      subst h1
      rcases h2 with rfl | rfl
      · have hb : -1 - b < 0 := by linarith
        have ha : a ≤ 0 := by nlinarith
        refine joinTime_minus htol (by linarith) (div_nonneg_of_nonpos ha (le_of_lt hb)) ?_ ?_
        · rw [div_le_iff_of_neg hb]
          nlinarith
        · intro co hc
          simp only [Option.some.injEq, Prod.mk.injEq, true_and] at hc
          subst hc
          linarith
      · have hb : 0 < 1 - b := by linarith
        have ha : 0 ≤ a := by nlinarith
        refine joinTime_plus htol (by linarith) (by positivity) ?_ ?_
        · rw [div_le_iff₀ hb]
          nlinarith
        · intro co hc
          simp only [Option.some.injEq, Prod.mk.injEq, true_and] at hc
          subst hc
          linarith

/-- The times that an iteration computes. -/
theorem lars_times {X : Mat K} {y : Nat → K} {tol l : K} {E : List Nat} {sgn : Nat → K}
    {last : Option (Nat × K)} {c d jts : List K} (hn : E.Nodup) (hr : ∀ i ∈ E, i < X.nc) (htol : 0 < tol)
    (htol' : tol < 10) (hl : 0 < l) (hlc : c.length = E.length)
    (hreg : LarsRegular X y tol l E (spread E c) (spread E d))
    (hg : LarsGood X y l E sgn last (spread E c) (spread E d))
    (hj : tJoin X y tol l E c d last = some jts) :
    LarsTimes X y l (max (maxJoinTime jts E).1 (maxTime (tCross tol l c d)).1) E last (spread E c) (spread E d)
      (fun i => jts.getD i 0) ∧ max (maxJoinTime jts E).1 (maxTime (tCross tol l c d)).1 < l ∧
    (∀ i < X.nc, i ∉ E → jts.getD i 0 < l ∧ LarsEvent X y E (spread E c) (spread E d) i (jts.getD i 0)) := by
  have hlen : jts.length = X.nc := by simpa using mapM_length hj
  have hspec : ∀ i < X.nc, i ∉ E → 0 ≤ jts.getD i 0 ∧ jts.getD i 0 < l ∧ ∃ s, (s = 1 ∨ s = -1) ∧
      larsXy X y i - gram X (spread E c) i = jts.getD i 0 * (s - gram X (spread E d) i) ∧
      ∀ coeff, last = some (i, coeff) → s * coeff ≤ 0 := by
    intro i hi hE
    have h1 := mapM_getElem hj i (by simpa using hi)
    simp only [List.getElem_range] at h1
    have hget : jts.getD i 0 = jts[i]'(by rw [hlen]; exact hi) := by
      rw [List.getD_eq_getElem?_getD, List.getElem?_eq_getElem (by rw [hlen]; exact hi)]
      rfl
    rw [hget]
    rw [larsXX_eq hn hr, larsXX_eq hn hr] at h1
    obtain ⟨h2, h3, s, h4, h5, h6⟩ := joinTime_spec htol' h1
    have hb := hreg.join i hi hE s _ h4 (by rw [corr_linear]; exact cone_border h5) h2 h3
    refine ⟨hb.1, lt_of_le_of_ne hb.2 (fun he => ?_), s, h4, h5, h6⟩
    have hc := good_cone hg hi hE h4 h6
    have hbord := cone_border h5
    rw [he] at hbord
    rw [hbord] at hc
    rcases h4 with rfl | rfl
    · rcases hc with h | ⟨h, -⟩
      · rw [one_mul, abs_of_pos hl] at h; exact lt_irrefl _ h
      · linarith
    · rcases hc with h | ⟨h, -⟩
      · rw [neg_one_mul, abs_neg, abs_of_pos hl] at h; exact lt_irrefl _ h
      · linarith
  obtain ⟨j0, j1, j2⟩ := maxJoinTime_spec jts E
  obtain ⟨c0, c1, c2⟩ := maxTime_spec (tCross tol l c d)
  have hjl : (maxJoinTime jts E).1 < l := by
    rcases eq_or_lt_of_le j0 with h | h
    · rw [← h]; exact hl
    · obtain ⟨h1, h2⟩ := j1 h
      obtain ⟨h3, h4⟩ := List.getElem?_eq_some_iff.1 h2
      have := (hspec _ (by rw [← hlen]; exact h3) h1).2.1
      rw [List.getD_eq_getElem?_getD, h2] at this
      exact this
  have hcl : (maxTime (tCross tol l c d)).1 < l := by
    rcases c1 with ⟨h, -⟩ | ⟨-, h⟩
    · rw [h]; exact hl
    · unfold tCross at h
      rw [List.getElem?_map, Option.map_eq_some_iff] at h
      obtain ⟨a, -, h2⟩ := h
      rcases crossTime_some h2 with h3 | ⟨-, -, h3⟩
      · unfold tCross; rw [h3]; exact hl
      · unfold tCross; linarith
  refine ⟨⟨le_of_lt (max_lt hjl hcl), fun i hi hE => ?_, fun i hi hd => ?_⟩, max_lt hjl hcl, fun i hi hE => ?_⟩
  · obtain ⟨h1, h2, h3⟩ := hspec i hi hE
    refine ⟨h1, le_trans (j2 i _ hE ?_) (le_max_left _ _), h3⟩
    rw [List.getD_eq_getElem?_getD, List.getElem?_eq_getElem (by rw [hlen]; exact hi)]
    rfl
  · have hk := List.idxOf_lt_length_of_mem hi
    have hC : spread E c i = c.getD (E.idxOf i) 0 := if_pos hi
    have hD : spread E d i = d.getD (E.idxOf i) 0 := if_pos hi
    rcases lt_or_ge (l - tol) (spread E c i / spread E d i) with h | h
    · right
      exact hreg.cross i hi _ hd (by rw [div_mul_cancel₀ _ hd]) h
    · left
      refine le_trans (c2 _ ?_) (le_max_right _ _)
      unfold tCross
      rw [List.mem_map]
      refine ⟨E.idxOf i, List.mem_range.2 (by rw [hlc]; exact hk), ?_⟩
      unfold crossTime
      rw [← hC, ← hD, divFin_fin.2 ⟨hd, rfl⟩]
      simp only
      rw [if_neg]
      linarith
  · obtain ⟨h1, h2, s, h3, h4, -⟩ := hspec i hi hE
    refine ⟨h2, hi, .inl ⟨hE, ?_⟩⟩
    rw [corr_linear, cone_border h4, abs_mul, abs_of_nonneg h1]
    rcases h3 with rfl | rfl <;> simp

end

end GoSelect
