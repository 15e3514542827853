import Verif.Proofs.NonFinite
import Verif.Proofs.LassoNonFinite
import Verif.Proofs.NestedLasso
import Verif.Props.C112
import Verif.Props.C113
import Verif.Proofs.SaWalk

/-!
# C115: responses with infinite values or NaN
-/

namespace GoSelect

open Spec

/-! ## The words -/

/-- The words for NaN and the infinities, in upper or lower case. -/
inductive Spec.WordFor {K : Type} : List Char → Fl K → Prop
  | nan {s} (h : s.map Char.toLower = ['n', 'a', 'n']) : WordFor s .nan
  | inf {s} (h : s.map Char.toLower = ['i', 'n', 'f'] ∨ s.map Char.toLower = ['i', 'n', 'f', 'i', 'n', 'i', 't', 'y']) :
      WordFor s .posInf
  | plus {s} (h : s.map Char.toLower = ['i', 'n', 'f'] ∨ s.map Char.toLower = ['i', 'n', 'f', 'i', 'n', 'i', 't', 'y']) :
      WordFor ('+' :: s) .posInf
  | minus {s} (h : s.map Char.toLower = ['i', 'n', 'f'] ∨ s.map Char.toLower = ['i', 'n', 'f', 'i', 'n', 'i', 't', 'y']) :
      WordFor ('-' :: s) .negInf

theorem parseSpecial_iff {K : Type} (s : List Char) (v : Fl K) : parseSpecial s = some v ↔ WordFor s v := by
  constructor
  · intro h
    unfold parseSpecial at h
    simp only [decide_eq_true_eq] at h
    split at h
    · split at h
      · rename_i h1; cases h; exact .minus h1
      · cases h
    · split at h
      · rename_i h1; cases h; exact .plus h1
      · cases h
    · split at h
      · rename_i h1; cases h; exact .inf h1
      · split at h
        · rename_i h1; cases h; exact .nan h1
        · cases h
  · intro h
    have key : ∀ t : List Char, (∀ u, t ≠ '-' :: u) → (∀ u, t ≠ '+' :: u) → parseSpecial (K := K) t =
        if (t.map Char.toLower = "inf".toList ∨ t.map Char.toLower = "infinity".toList) then some .posInf
        else if t.map Char.toLower = "nan".toList then some .nan else none := by
      intro t h1 h2
      unfold parseSpecial
      simp only [decide_eq_true_eq]
    have hm : ∀ u : List Char, (('-' :: u).map Char.toLower)[0]? = some '-' := fun u => by
      show some (Char.toLower '-') = _; decide
    have hp : ∀ u : List Char, (('+' :: u).map Char.toLower)[0]? = some '+' := fun u => by
      show some (Char.toLower '+') = _; decide
    cases h with
    | nan h =>
      rw [key]
      · rw [if_neg, if_pos]
        · exact h
        · rw [h]; decide
      · rintro u rfl; have := hm u; rw [h] at this; exact absurd this (by decide)
      · rintro u rfl; have := hp u; rw [h] at this; exact absurd this (by decide)
    | inf h =>
      rw [key]
      · exact if_pos h
      · rintro u rfl; have := hm u; rcases h with h | h <;> rw [h] at this <;> exact absurd this (by decide)
      · rintro u rfl; have := hp u; rcases h with h | h <;> rw [h] at this <;> exact absurd this (by decide)
    | plus h =>
      unfold parseSpecial
      simp only [decide_eq_true_eq]
      exact if_pos h
    | minus h =>
      unfold parseSpecial
      simp only [decide_eq_true_eq]
      exact if_pos h

theorem word_no_digit {K : Type} {s : List Char} {v : Fl K} (h : WordFor s v) : ∀ c ∈ s, c.isDigit = false := by
  have key : ∀ {t : List Char}, (t.map Char.toLower = ['i', 'n', 'f'] ∨
      t.map Char.toLower = ['i', 'n', 'f', 'i', 'n', 'i', 't', 'y'] ∨ t.map Char.toLower = ['n', 'a', 'n']) →
      ∀ c ∈ t, c.isDigit = false := by
    intro t ht c hc
    by_contra hd
    rw [Bool.not_eq_false] at hd
    have h1 : c.toLower = c := by
      unfold Char.toLower
      split
      · rename_i h
        unfold Char.isDigit at hd
        simp only [Bool.and_eq_true, decide_eq_true_eq] at hd
        obtain ⟨h1, h2⟩ := h
        obtain ⟨h3, h4⟩ := hd
        have h5 := UInt32.le_trans h1 h4
        exact absurd h5 (by decide)
      · rfl
    have h2 : c ∈ t.map Char.toLower := List.mem_map.2 ⟨c, hc, h1⟩
    have h3 : ∀ l : List Char, (∀ d ∈ l, d.isDigit = false) → t.map Char.toLower = l → False := by
      intro l hl h
      rw [h] at h2
      exact absurd hd (by rw [hl c h2]; decide)
    rcases ht with h | h | h
    · exact h3 _ (by decide) h
    · exact h3 _ (by decide) h
    · exact h3 _ (by decide) h
  cases h with
  | nan h => exact key (Or.inr (Or.inr h))
  | inf h => exact key (by tauto)
  | plus h =>
    intro c hc
    rcases List.mem_cons.1 hc with rfl | hc
    · decide
    · exact key (by tauto) c hc
  | minus h =>
    intro c hc
    rcases List.mem_cons.1 hc with rfl | hc
    · decide
    · exact key (by tauto) c hc

theorem parseDecimal_digit {s : List Char} {q : ℚ} (h : parseDecimal s = some q) : ∃ c ∈ s, c.isDigit = true := by
  by_contra hcon
  push Not at hcon
  have h1 : s.takeWhile Char.isDigit = [] := by
    match s, hcon with
    | [], _ => rfl
    | c :: t, hcon => rw [List.takeWhile_cons, if_neg (hcon c List.mem_cons_self)]
  have h2 : ∀ t : List Char, (∀ c ∈ t, ¬ c.isDigit = true) → t.takeWhile Char.isDigit = [] := by
    intro t ht
    match t, ht with
    | [], _ => rfl
    | c :: t, hcon => rw [List.takeWhile_cons, if_neg (hcon c List.mem_cons_self)]
  have h3 : s.dropWhile Char.isDigit = s := by
    match s, hcon with
    | [], _ => rfl
    | c :: t, hcon => rw [List.dropWhile_cons, if_neg (hcon c List.mem_cons_self)]
  unfold parseDecimal at h
  simp only [h1, h3] at h
  rw [if_pos] at h
  · cases h
  · refine ⟨trivial, ?_⟩
    split
    · rename_i t
      exact h2 t (fun c hc => hcon c (List.mem_cons_of_mem _ hc))
    · rfl

theorem parseFloat_digit {F : FloatFormat} {s : String} {x : FinFloat F} (h : parseFloat F s = some x) :
    ∃ c ∈ s.toList, c.isDigit = true := by
  have key : ∀ {t : List Char} {b : Bool}, ((parseDecimal t).bind F.round).map (FinFloat.mk b) = some x →
      ∃ c ∈ t, c.isDigit = true := by
    intro t b ht
    rcases hq : parseDecimal t with _ | q
    · rw [hq] at ht; cases ht
    · exact parseDecimal_digit hq
  unfold parseFloat at h
  split at h
  · rename_i t ht
    obtain ⟨c, hc, hd⟩ := key h
    exact ⟨c, by rw [ht]; exact List.mem_cons_of_mem _ hc, hd⟩
  · rename_i t ht
    obtain ⟨c, hc, hd⟩ := key h
    exact ⟨c, by rw [ht]; exact List.mem_cons_of_mem _ hc, hd⟩
  · exact key h

/-- The numbers that a field of a CSV file may have: the words, and the decimal numbers (C112_numeral) as before. -/
theorem C115_words (F : FloatFormat) (s : String) (v : Fl (FinFloat F)) :
    parseFloatFl F s = some v ↔ WordFor s.toList v ∨ ∃ x, parseFloat F s = some x ∧ v = .fin x := by
  unfold parseFloatFl
  rcases h : parseSpecial (K := FinFloat F) s.toList with _ | w
  · have h1 : ¬ WordFor s.toList v := fun hw => by
      rw [← parseSpecial_iff, h] at hw; cases hw
    simp only [h1, false_or, Option.map_eq_some_iff]
    exact ⟨fun ⟨x, h1, h2⟩ => ⟨x, h1, h2.symm⟩, fun ⟨x, h1, h2⟩ => ⟨x, h1, h2.symm⟩⟩
  · simp only [Option.some.injEq]
    have hw := (parseSpecial_iff _ _).1 h
    constructor
    · rintro rfl; exact Or.inl hw
    · rintro (h1 | ⟨x, h1, -⟩)
      · have := (parseSpecial_iff _ _).2 h1
        rw [h] at this
        exact Option.some.inj this
      · obtain ⟨c, hc, hd⟩ := parseFloat_digit h1
        rw [word_no_digit hw c hc] at hd
        cases hd

/-- A table with such a word in the target column is read, without a message; the response has the value in that
row. -/
theorem C115_read (F : FloatFormat) (crlf final : Bool) (names : List String) (lines : List (List String)) (n t : Nat)
    (hn : 2 ≤ n) (ht : t < n) (hnames : names.length = n) (hw : ∀ l ∈ lines, l.length = n)
    (hp : ∀ l ∈ names :: lines, ∀ f ∈ l, PlainField f) (tc : Int) (htc : tc = t ∨ tc = (t : Int) - n) (r : Nat)
    (l : List String) (hr : lines[r]? = some l) (v : Fl (FinFloat F)) (hv : WordFor (l.getD t "").toList v) :
    ∃ e, parseCSV (parseFloatFl F) csvRead (tableText crlf final (names :: lines)) tc = some e ∧ e.Y[r]? = some v := by
  have hl : lines ≠ [] := by rintro rfl; cases hr
  obtain ⟨e, h1, -, -, -, -, -, h7⟩ := C112_table (parseFloatFl F) crlf final names lines n t hn ht hnames hl hw hp tc htc
  refine ⟨e, h1, ?_⟩
  rw [h7, List.getElem?_map, hr, Option.map_some, (C115_words F _ v).2 (Or.inl hv), Option.getD_some]

example (F : FloatFormat) : ∃ e, parseCSV (parseFloatFl F) csvRead "x,y\n1,2\n3,NaN\n" (-1) = some e ∧
    e.Y[1]? = some .nan := by
  have h : "x,y\n1,2\n3,NaN\n" = tableText false true [["x", "y"], ["1", "2"], ["3", "NaN"]] := by decide +kernel
  rw [h]
  exact C115_read F false true ["x", "y"] [["1", "2"], ["3", "NaN"]] 2 1 (by decide) (by decide) rfl (by decide)
    (by unfold PlainField; decide) (-1) (by decide) 1 ["3", "NaN"] rfl .nan (.nan (by decide))

example (F : FloatFormat) : parseFloatFl F "-Infinity" = some .negInf :=
  (C115_words F _ _).2 (Or.inl (.minus (s := "Infinity".toList) (by decide)))

/-! ## Simulated annealing -/

/-- Aicc passes infinities and NaN on. -/
theorem aicc_propagates : Propagates aiccFl := fun k n r h => aiccFl_big k n h

/-- The states of a search that never accepts. -/
noncomputable def runFl (P : SaInputFl) (index : Nat → Nat) (u : Nat → ℝ) (s0 : SaStateFl) : Nat → SaStateFl
  | 0 => s0
  | k + 1 =>
    match saBodyFl P (runFl P index u s0 k) (index k) (u k) with
    | .next s => s
    | _ => s0

/-- If one value of the response is NaN or infinite, no iteration of simulated annealing is the last one, whatever the
random numbers are and whatever gonum makes of such values: no model is ever accepted. -/
theorem C115_never {P : SaInputFl} (hB : BlasOk P.blas) (hcol : 0 < P.X.nc) (hr : P.y.length = P.X.nr)
    (hy : NotFinite P.y) (hc : Propagates P.cost) {index : Nat → Nat} {u : Nat → ℝ} (hi : ∀ k, index k < P.X.nc)
    (hu : ∀ k, 0 ≤ u k) :
    ∃ run : Nat → SaStateFl, saInitFl P = some (run 0) ∧
      ∀ k, saBodyFl P (run k) (index k) (u k) = .next (run (k + 1)) ∧ (run k).acc = [] := by
  obtain ⟨s0, h0, hs0⟩ := saInitFl_untouched hcol
  have hun : ∀ k, Untouched P (runFl P index u s0 k) := by
    intro k
    induction k with
    | zero => exact hs0
    | succ k ih =>
      obtain ⟨s', h1, h2⟩ := saBodyFl_untouched hB hr hy hc ih (hi k) (hu k)
      rw [runFl, h1]
      exact h2
  refine ⟨runFl P index u s0, h0, fun k => ?_⟩
  obtain ⟨s', h1, -⟩ := saBodyFl_untouched hB hr hy hc (hun k) (hi k) (hu k)
  refine ⟨?_, (hun k).acc⟩
  rw [runFl, h1]

/-- So it has no result. -/
theorem C115_no_result {P : SaInputFl} (hB : BlasOk P.blas) (hcol : 0 < P.X.nc) (hr : P.y.length = P.X.nr)
    (hy : NotFinite P.y) (hc : Propagates P.cost) {index : Nat → Nat} {u : Nat → ℝ} (hi : ∀ k, index k < P.X.nc)
    (hu : ∀ k, 0 ≤ u k) : ¬ ∃ s0 r, saInitFl P = some s0 ∧ Runs (saStreamFl P index u) (0, s0) r := by
  obtain ⟨run, h0, h⟩ := C115_never hB hcol hr hy hc hi hu
  rintro ⟨s0, r, h1, hruns⟩
  rw [h0, Option.some.injEq] at h1
  subst h1
  have key : ∀ st r, Runs (saStreamFl P index u) st r → ∀ k, st = (k, run k) → False := by
    intro st r hst
    induction hst with
    | ret h' =>
      rintro k rfl
      unfold saStreamFl at h'
      rw [(h k).1] at h'
      cases h'
    | next h' _ ih =>
      rintro k rfl
      unfold saStreamFl at h'
      rw [(h k).1] at h'
      cases h'
      exact ih (k + 1) rfl
  exact key _ _ hruns 0 rfl

/-- With Aicc, at least one sweep (or a single column) and fair random numbers: the search returns if and only if all
values of the response are finite. -/
theorem C115_iff (svd : Mat ℝ → SVD ℝ) (B : Blas) (hB : BlasOk B) (X : Mat ℝ) (y : List (Fl ℝ)) (nSweeps : Int)
    (hs : 0 < nSweeps ∨ X.nc = 1) (hcol : 0 < X.nc) (hr : y.length = X.nr)
    (hdata : ∀ v, y = v.map .fin → SaData ⟨svd, X, v, nSweeps, aicc⟩) {index : Nat → Nat} {u : Nat → ℝ}
    (hf : FairDraws X.nc index u) :
    (∃ s0 r, saInitFl ⟨svd, B, X, y, nSweeps, aiccFl⟩ = some s0 ∧
      Runs (saStreamFl ⟨svd, B, X, y, nSweeps, aiccFl⟩ index u) (0, s0) r) ↔ ∀ x ∈ y, ∃ a, x = .fin a := by
  constructor
  · intro h
    by_contra hcon
    push Not at hcon
    exact C115_no_result (P := ⟨svd, B, X, y, nSweeps, aiccFl⟩) hB hcol hr hcon aicc_propagates hf.column hf.nonneg h
  · intro h
    obtain ⟨v, hv⟩ : ∃ v, finValues y = some v := by
      rcases hv : finValues y with _ | v
      · obtain ⟨x, hx, hn⟩ := finValues_none.1 hv
        obtain ⟨a, ha⟩ := h x hx
        exact absurd ha (hn a)
      · exact ⟨v, rfl⟩
    have hyv := finValues_isFin hv
    have hd := hdata v hyv
    have hag : SaInputFl.Agrees ⟨svd, B, X, y, nSweeps, aiccFl⟩ ⟨svd, X, v, nSweeps, aicc⟩ :=
      ⟨rfl, rfl, hyv, rfl, fun k n r hr => aiccFl_fin k n hr⟩
    obtain ⟨s0, r, h0, hruns, -⟩ := C113_returns_partial hd hs hf
    have h1 : ∀ k, u k < 1 := by
      obtain ⟨w, hw, h⟩ := hf.below
      exact fun k => (h k).trans_lt hw
    refine ⟨s0.toFl, r.toFl, ?_, saStream_toFl hag hd hf.column hf.nonneg h1 (.init h0) hruns⟩
    rw [saInit_toFl hag, h0, Option.map_some]

example (B : Blas) (hB : BlasOk B) :
    (∃ s0 r, saInitFl ⟨walkP.svd, B, walkP.X, walkP.y.map .fin, walkP.nSweeps, aiccFl⟩ = some s0 ∧
      Runs (saStreamFl ⟨walkP.svd, B, walkP.X, walkP.y.map .fin, walkP.nSweeps, aiccFl⟩ (fun k => k % 4) (fun _ => 1 / 2))
        (0, s0) r) :=
  (C115_iff walkP.svd B hB walkP.X (walkP.y.map .fin) walkP.nSweeps (Or.inl (by show (0 : Int) < 1; decide))
    walk_data.cols (by rw [List.length_map]; exact walk_data.rows)
    (fun v hv => by
      have : walkP.y = v := List.map_injective_iff.2 (fun a b h => Fl.fin.inj h) hv
      rw [← this]
      exact walk_data)
    (inTurn_fair 4 (by decide))).2 (fun x hx => by
      obtain ⟨a, -, rfl⟩ := List.mem_map.1 hx
      exact ⟨a, rfl⟩)

/-- The data of `exSa`, with a missing value in the last row. -/
noncomputable def exMissing (B : Blas) : SaInputFl where
  svd := orthSvd
  blas := B
  X := unitX 8 3
  y := [.fin 1, .fin 2, .fin 3, .fin 4, .fin 5, .fin 6, .fin 7, .nan]
  nSweeps := 100
  cost := aiccFl

theorem exMissing_notFinite (B : Blas) : NotFinite (exMissing B).y := ⟨.nan, by simp [exMissing], fun _ h => nomatch h⟩

/-- A value NaN in the response is not noticed: the search runs forever, whatever the random numbers are. -/
theorem C115_refuted (B : Blas) (hB : BlasOk B) (index : Nat → Nat) (u : Nat → ℝ) (hf : FairDraws 3 index u) :
    ¬ ∃ s0 r, saInitFl (exMissing B) = some s0 ∧ Runs (saStreamFl (exMissing B) index u) (0, s0) r :=
  C115_no_result hB (show 0 < 3 by decide) rfl (exMissing_notFinite B) aicc_propagates hf.column hf.nonneg

/-- Something that gonum could do: NaN everywhere. -/
def nanBlas : Blas := ⟨fun X _ => List.replicate X.nc .nan, fun X _ => List.replicate X.nr .nan⟩

theorem nanBlas_ok : BlasOk nanBlas := ⟨fun X _ => by simp [nanBlas], fun X _ => by simp [nanBlas]⟩

example : ¬ ∃ s0 r, saInitFl (exMissing nanBlas) = some s0 ∧
    Runs (saStreamFl (exMissing nanBlas) (fun k => k % 3) (fun _ => 1 / 2)) (0, s0) r :=
  C115_refuted nanBlas nanBlas_ok _ _ (inTurn_fair 3 (by decide))

/-! ## The lasso command -/

theorem larsStart_eq {X : Mat ℝ} (hcols : ∀ c < X.nc, c ≠ 0 → 1 / 10 ^ 10 ≤ goStd (colOf X c)) (hr : 0 < X.nr)
    (hc : 0 < X.nc) (y : List (Fl ℝ)) (lambMin : ℝ) :
    ∃ n, newNormalizedData X [] = some n ∧ n.X.nr = X.nr ∧ n.X.nc = X.nc ∧ larsStart X y lambMin =
      if Fl.fin lambMin < larsFirstLamb n.X (normalizedResponse y) then .iterates else .empty (y.all Fl.isFin) := by
  rcases newNormalizedData_inv X [] with ⟨⟨c, hc, h0, hs⟩, -⟩ | ⟨d, h1, h2, -⟩
  · exact absurd hs (not_lt.2 (hcols c hc h0))
  · refine ⟨d, h1, h2.nr, h2.nc, ?_⟩
    unfold larsStart
    rw [h1]
    simp only
    rw [if_neg (by omega)]

/-- With a value NaN or infinite in the response the lasso command (LARS, nonnegative smallest lambda) finds no node, and
writes no file. -/
theorem C115_lasso_partial {X : Mat ℝ} (hcols : ∀ c < X.nc, c ≠ 0 → 1 / 10 ^ 10 ≤ goStd (colOf X c)) (hc : 0 < X.nc)
    (hr : 0 < X.nr) {y : List (Fl ℝ)} (hy : NotFinite y) {lambMin : ℝ} (hl : 0 ≤ lambMin) :
    larsStart X y lambMin = .empty false := by
  obtain ⟨n, -, h1, -, h3⟩ := larsStart_eq hcols hr hc y lambMin
  rw [h3, normalizedResponse_nan hy, larsFirstLamb_nan _ _ (by omega), if_neg]
  · congr 1
    obtain ⟨x, hx, hn⟩ := hy
    rw [List.all_eq_false]
    refine ⟨x, hx, ?_⟩
    cases x with
    | fin a => exact absurd rfl (hn a)
    | _ => decide
  · rw [fin_lt_fin]; exact not_lt.2 hl

/-- If all values of the response are equal, the normalised response is NaN: a result without nodes is written. -/
theorem C115_constant {X : Mat ℝ} (hcols : ∀ c < X.nc, c ≠ 0 → 1 / 10 ^ 10 ≤ goStd (colOf X c)) (hc : 0 < X.nc)
    (hr : 0 < X.nr) (v : ℝ) {lambMin : ℝ} (hl : 0 ≤ lambMin) :
    larsStart X (List.replicate X.nr (.fin v)) lambMin = .empty true := by
  obtain ⟨n, -, h1, -, h3⟩ := larsStart_eq hcols hr hc (List.replicate X.nr (.fin v)) lambMin
  rw [h3, normalizedResponse_const, larsFirstLamb_nan _ _ (by omega), if_neg]
  · congr 1
    rw [List.all_eq_true]
    intro x hx
    rw [(List.mem_replicate.1 hx).2]
    rfl
  · rw [fin_lt_fin]; exact not_lt.2 hl

/-- Otherwise the loop is entered if and only if a column of the normalised data has a scalar product with the
normalised response larger than the smallest lambda. -/
theorem C115_starts {X : Mat ℝ} (hcols : ∀ c < X.nc, c ≠ 0 → 1 / 10 ^ 10 ≤ goStd (colOf X c)) (hc : 0 < X.nc)
    (hr : 0 < X.nr) {y : List ℝ} (hy : y.length = X.nr) (hs : goStd y ≠ 0) {lambMin : ℝ} (hl : 0 ≤ lambMin) :
    ∃ n, newNormalizedData X y = some n ∧ (larsStart X (y.map .fin) lambMin = .iterates ↔
      ∃ i < X.nc, lambMin < |((List.range X.nr).map (fun r => n.X.get r i * ((y.getD r 0 - goMean y) / goStd y))).sum|) := by
  obtain ⟨n0, h0, hnr0, hnc0, h3⟩ := larsStart_eq hcols hr hc (y.map .fin) lambMin
  rcases newNormalizedData_inv X [] with ⟨-, h1⟩ | ⟨d0, h1, h2, -⟩
  · rw [h0] at h1; simp at h1
  rw [h0, Option.some.injEq] at h1
  subst h1
  rcases newNormalizedData_inv X y with ⟨⟨c, hc, hc0, hs⟩, -⟩ | ⟨n, hn, hn2, -⟩
  · exact absurd hs (not_lt.2 (hcols c hc hc0))
  refine ⟨n, hn, ?_⟩
  have hy2 : normalizedResponse (y.map .fin) = (y.map (fun v => (v - goMean y) / goStd y)).map .fin := by
    rw [normalizedResponse_fin, List.map_map]
    exact List.map_congr_left fun v _ => if_neg hs
  rw [h3, hy2, larsFirstLamb_fin _ _ (by rw [List.length_map, hy, hnr0])]
  have hsum : ∀ i < X.nc, ((List.range n0.X.nr).map (fun r => n0.X.get r i *
      (y.map (fun v => (v - goMean y) / goStd y)).getD r 0)).sum =
      ((List.range X.nr).map (fun r => n.X.get r i * ((y.getD r 0 - goMean y) / goStd y))).sum := by
    intro i hi
    rw [hnr0]
    congr 1
    refine List.map_congr_left fun r hr => ?_
    have hr := List.mem_range.1 hr
    have hry : r < y.length := by omega
    rw [h2.done r i hi hr, hn2.done r i hi hr]
    simp [List.getD_eq_getElem?_getD, List.getElem?_eq_getElem hry]
  have hiff : (∃ i < X.nc, lambMin < |((List.range X.nr).map
      (fun r => n.X.get r i * ((y.getD r 0 - goMean y) / goStd y))).sum|) ↔
      (Fl.fin lambMin : Fl ℝ) < .fin (((List.range n0.X.nc).map (fun i => |((List.range n0.X.nr).map (fun r =>
        n0.X.get r i * (y.map (fun v => (v - goMean y) / goStd y)).getD r 0)).sum|)).foldl max 0) := by
    rw [fin_lt_fin, lt_foldl_max, hnc0]
    constructor
    · rintro ⟨i, hi, h⟩
      exact Or.inr ⟨_, List.mem_map.2 ⟨i, List.mem_range.2 hi, rfl⟩, by rw [hsum i hi]; exact h⟩
    · rintro (h | ⟨x, hx, h⟩)
      · linarith
      · obtain ⟨i, hi, rfl⟩ := List.mem_map.1 hx
        have hi := List.mem_range.1 hi
        exact ⟨i, hi, by rw [← hsum i hi]; exact h⟩
  rw [hiff]
  constructor
  · intro h
    by_contra hcon
    rw [if_neg hcon] at h
    cases h
  · intro h
    rw [if_pos h]

/-- A bias column and a column of different values. -/
def twoRows : Mat ℝ := ⟨2, 2, fun r c => if c = 0 then 1 else r⟩

theorem twoRows_cols : ∀ c < twoRows.nc, c ≠ 0 → 1 / 10 ^ 10 ≤ goStd (colOf twoRows c) := by
  intro c hc h0
  have hc1 : c = 1 := by
    have : c < 2 := hc
    omega
  subst hc1
  have h1 : colOf twoRows 1 = [0, 1] := by simp [colOf, twoRows, List.range_succ]
  rw [h1]
  unfold goStd goMean
  simp only [List.length_cons, List.length_nil]
  rw [if_neg (by norm_num)]
  refine Real.le_sqrt_of_sq_le ?_
  norm_num

example : larsStart twoRows [.fin 1, .negInf] 0 = .empty false :=
  C115_lasso_partial twoRows_cols (by decide) (by decide) ⟨.negInf, by simp, fun _ h => nomatch h⟩ le_rfl

example : larsStart twoRows [.fin 7, .fin 7] (1 / 2) = .empty true :=
  C115_constant twoRows_cols (by decide) (by decide) 7 (by norm_num)

theorem goStd_two : goStd [1, 3] ≠ 0 := by
  unfold goStd goMean
  simp only [List.length_cons, List.length_nil]
  rw [if_neg (by norm_num)]
  refine (Real.sqrt_pos.2 ?_).ne'
  norm_num

example : ∃ n, newNormalizedData twoRows [1, 3] = some n ∧ (larsStart twoRows ([1, 3].map .fin) 0 = .iterates ↔
    ∃ i < 2, 0 < |((List.range 2).map (fun r => n.X.get r i *
      (([1, 3].getD r 0 - goMean [1, 3]) / goStd [1, 3]))).sum|) :=
  C115_starts twoRows_cols (by decide) (by decide) rfl goStd_two le_rfl

end GoSelect
