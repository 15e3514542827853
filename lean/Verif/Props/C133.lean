import Verif.Proofs.HighscoreNan
import Mathlib.Algebra.Order.Ring.Int

/-!
C133: a highscore list into which nodes with the score NaN are inserted too.

`NumScore n`: the score of `n` is not NaN.  Go's `<` is false as soon as one side is NaN; for numbers `¬ a < b` says that
`a` is at least `b`.
-/

namespace GoSelect

open scoped List

variable {K : Type} [LinearOrder K]

/-- The numbers among the scores of a list, in the order of the list. -/
def numbersOf (l : List (Node (Fl K))) : List (Fl K) := (l.map (·.score)).filter (fun s => decide (s ≠ .nan))

theorem numbersOf_eq (l : List (Node (Fl K))) : numbersOf l = (l.filter (fun n => decide (NumScore n))).map (·.score) := by
  unfold numbersOf
  rw [List.filter_map]
  rfl

/-- Without the NaNs the scores are never increasing. -/
theorem C133_sorted {M : Int} (hM : 2 ≤ M) {ns : List (Node (Fl K))} {h : Highscore (Fl K)}
    (hi : (newHighscore M).insertAll ns = some h) : (numbersOf h.items).Pairwise (fun a b => ¬ a < b) := by
  unfold numbersOf
  refine List.Pairwise.filter _ (List.pairwise_map.2 (insertAll_nan hM hi).desc)

/-- Nodes of the same score, also NaN, are kept in the order in which they were inserted, and every kept node was
inserted. -/
theorem C133_stable {M : Int} (hM : 2 ≤ M) {ns : List (Node (Fl K))} {h : Highscore (Fl K)}
    (hi : (newHighscore M).insertAll ns = some h) (s : Fl K) :
    h.items.filter (fun n => n.score = s) <+ ns.filter (fun n => n.score = s) := (insertAll_nan hM hi).stable s

/-- The list holds at most `MaxItems` nodes, and all inserted ones or at least `MaxItems - 1`. -/
theorem C133_len {M : Int} (hM : 2 ≤ M) {ns : List (Node (Fl K))} {h : Highscore (Fl K)}
    (hi : (newHighscore M).insertAll ns = some h) :
    (h.len : Int) ≤ M ∧ (h.len < ns.length → M - 1 ≤ h.len) :=
  ⟨(insertAll_nan hM hi).cap, (insertAll_nan hM hi).keep⟩

/-- No insertion panics. -/
theorem C133_total {M : Int} (hM : M ≠ 1) (ns : List (Node (Fl K))) :
    ∃ h, (newHighscore M).insertAll ns = some h := insertAll_isSome hM ns

/-- If the first node that was inserted has the score NaN, it stays the first one: `BestScore()` is NaN for ever. -/
theorem C133_nan_first [Zero K] {M : Int} (hM : 2 ≤ M) {n : Node (Fl K)} (hn : n.score = .nan) {ns : List (Node (Fl K))}
    {h : Highscore (Fl K)} (hi : (newHighscore M).insertAll (n :: ns) = some h) :
    h.items.head? = some n ∧ h.bestScore = .nan := by
  have h1 := (insertAll_nan hM hi).headNan n rfl (by simp [NumScore, hn])
  refine ⟨h1, ?_⟩
  cases hit : h.items with
  | nil => rw [hit] at h1; cases h1
  | cons a l =>
    rw [hit] at h1
    cases h1
    simp [Highscore.bestScore, hit, hn]

/-- If the first node that was inserted has a number as score, `BestScore()` is the largest number inserted, however
many NaNs are inserted later. -/
theorem C133_number_first_partial [Zero K] {M : Int} (hM : 2 ≤ M) {n : Node (Fl K)} (hn : n.score ≠ .nan)
    {ns : List (Node (Fl K))} {h : Highscore (Fl K)} (hi : (newHighscore M).insertAll (n :: ns) = some h) :
    h.bestScore ≠ .nan ∧ (∃ m ∈ n :: ns, m.score = h.bestScore) ∧ ∀ m ∈ n :: ns, ¬ h.bestScore < m.score := by
  have hv := insertAll_nan hM hi
  obtain ⟨a, ha, han⟩ := hv.headNum n rfl hn
  cases hit : h.items with
  | nil => rw [hit] at ha; cases ha
  | cons c l =>
    rw [hit] at ha
    cases ha
    have hb : h.bestScore = a.score := by simp [Highscore.bestScore, hit]
    rw [hb]
    refine ⟨han, ⟨a, hv.mem (by rw [hit]; simp), rfl⟩, ?_⟩
    rcases hv.best with ⟨b, hb1, hb2, hb3⟩ | ⟨-, hall⟩
    · intro m hm hlt
      rcases Fl.lt_or_lt b.score hb2 hlt with h1 | h1
      · have hd := hv.desc
        rw [hit] at hb1 hd
        rcases List.mem_cons.1 hb1 with rfl | hb1
        · exact Fl.lt_irrefl' _ h1
        · exact (List.pairwise_cons.1 hd).1 b hb1 h1
      · exact hb3 m hm h1
    · exact absurd han (hall a (by rw [hit]; simp))

/-- If one of the first `MaxItems` nodes has a number as score, the first number of the list is the largest number
inserted. -/
theorem C133_best_number_partial {M : Int} (hM : 2 ≤ M) {ns : List (Node (Fl K))}
    (hn : ∃ n ∈ ns.take M.toNat, n.score ≠ .nan) {h : Highscore (Fl K)} (hi : (newHighscore M).insertAll ns = some h) :
    ∃ v, (numbersOf h.items).head? = some v ∧ (∃ n ∈ ns, n.score = v) ∧ ∀ n ∈ ns, ¬ v < n.score := by
  have hv := insertAll_nan hM hi
  have hs := C133_sorted hM hi
  rcases hv.best with ⟨b, hb1, hb2, hb3⟩ | ⟨htake, hall⟩
  · have hmem : b.score ∈ numbersOf h.items := by
      unfold numbersOf
      rw [List.mem_filter]
      exact ⟨List.mem_map_of_mem hb1, by simpa [NumScore] using hb2⟩
    cases hno : numbersOf h.items with
    | nil => rw [hno] at hmem; simp at hmem
    | cons v l =>
      have hvm : v ∈ numbersOf h.items := by rw [hno]; simp
      unfold numbersOf at hvm
      obtain ⟨h1, h2⟩ := List.mem_filter.1 hvm
      obtain ⟨c, hc1, hc2⟩ := List.mem_map.1 h1
      refine ⟨v, rfl, ⟨c, hv.mem hc1, hc2⟩, ?_⟩
      intro m hm hlt
      rcases Fl.lt_or_lt b.score hb2 hlt with h3 | h3
      · rw [hno] at hmem hs
        rcases List.mem_cons.1 hmem with h4 | h4
        · rw [h4] at h3
          exact Fl.lt_irrefl' _ h3
        · exact (List.pairwise_cons.1 hs).1 _ h4 h3
      · exact hb3 m hm h3
  · obtain ⟨n, hn1, hn2⟩ := hn
    rw [← htake] at hn1
    exact absurd hn2 (hall n hn1)

/-- Otherwise the list holds the first `MaxItems` nodes, all NaN, and nothing else is ever put into it. -/
theorem C133_stuck {M : Int} (hM : 2 ≤ M) {ns : List (Node (Fl K))} (hn : ∀ n ∈ ns.take M.toNat, n.score = .nan)
    {h : Highscore (Fl K)} (hi : (newHighscore M).insertAll ns = some h) : h.items = ns.take M.toNat := by
  have hv := insertAll_nan hM hi
  rcases hv.best with ⟨b, hb1, hb2, -⟩ | ⟨htake, -⟩
  · -- shorter histories: the list of the first `M` insertions stays
    exfalso
    obtain ⟨h', hh'⟩ := insertAll_isSome (by omega : M ≠ 1) (ns.take M.toNat)
    have hv' := insertAll_nan hM hh'
    have hall : ∀ a ∈ h'.items, ¬ NumScore a := fun a ha => by simpa [NumScore] using hn a (hv'.mem ha)
    have key : ∀ ms : List (Node (Fl K)), (∀ n ∈ (ns.take M.toNat ++ ms).take M.toNat, n.score = .nan) →
        ∀ g, (newHighscore M).insertAll (ns.take M.toNat ++ ms) = some g → ∀ a ∈ g.items, ¬ NumScore a := by
      intro ms
      induction ms using List.reverseRec with
      | nil =>
        intro _ g hg
        rw [List.append_nil, hh'] at hg
        cases hg
        exact hall
      | append_singleton ms x ih =>
        intro hms g hg
        rw [← List.append_assoc, insertAll_snoc] at hg
        cases hm : (newHighscore M).insertAll (ns.take M.toNat ++ ms) with
        | none => simp [hm] at hg
        | some g0 =>
          rw [hm, Option.bind_some] at hg
          have hpre : (ns.take M.toNat ++ ms).take M.toNat <+: (ns.take M.toNat ++ (ms ++ [x])).take M.toNat := by
            rw [← List.append_assoc, List.take_append (l₂ := [x])]
            exact List.prefix_append _ _
          have hg0 := ih (fun n hn' => hms n (hpre.subset hn')) g0 hm
          have he := insert_any hg
          rw [insertAll_maxItems hm] at he
          have hv0 := insertAll_nan hM hm
          generalize g.items = gi at he
          cases he with
          | reject last h1 h2 h3 => exact hg0
          | place p z q h1 h2 h3 h4 => exact absurd (Fl.ne_nan_of_lt h3).1 (hg0 z (by rw [h1]; simp))
          | replace p z q h1 h2 h3 h4 => exact absurd (Fl.ne_nan_of_lt h3).1 (hg0 z (by rw [h1]; simp))
          | push h1 h2 =>
            intro a ha
            rcases List.mem_append.1 ha with ha | ha
            · exact hg0 a ha
            · rw [List.mem_singleton.1 ha]
              rcases hv0.best with ⟨b, hb1, hb2, -⟩ | ⟨ht, -⟩
              · exact absurd hb2 (hg0 b hb1)
              · have hlen := congrArg List.length ht
                rw [List.length_take] at hlen
                have : x ∈ (ns.take M.toNat ++ (ms ++ [x])).take M.toNat := by
                  rw [List.take_of_length_le]
                  · simp
                  · simp only [List.length_append, List.length_singleton] at *
                    omega
                simpa [NumScore] using hms x this
          | full h1 h2 => exact hg0
    have := key (ns.drop M.toNat) (by rw [List.take_append_drop]; exact hn) h
      (by rw [List.take_append_drop]; exact hi) b hb1
    exact this hb2
  · exact htake

/-- If at most `k` NaNs were inserted the list keeps the `MaxItems - 1 - k` largest numbers: a node with a number as score
is missing only if so many nodes with a number at least as large are in the list. -/
theorem C133_missing_partial {M : Int} (hM : 2 ≤ M) {ns : List (Node (Fl K))} {h : Highscore (Fl K)}
    (hi : (newHighscore M).insertAll ns = some h) {k : Nat} (hk : (ns.filter (fun n => n.score = .nan)).length ≤ k)
    {n : Node (Fl K)} (hn : n ∈ ns) (hs : n.score ≠ .nan) (hm : n ∉ h.items) :
    M - 1 - k ≤ (h.items.filter (fun m => m.score ≠ .nan ∧ ¬ m.score < n.score)).length := by
  have hv := insertAll_nan hM hi
  have h1 := hv.missing n.score hs (by
    by_contra hc
    have := (hv.stable n.score).eq_of_length_le (by unfold copies at hc; omega)
    have h2 : n ∈ ns.filter (fun m => decide (m.score = n.score)) := by simp [hn]
    rw [← this] at h2
    exact hm (List.mem_filter.1 h2).1)
  have e : atLeast n.score h.items = (h.items.filter (fun m => m.score ≠ .nan ∧ ¬ m.score < n.score)).length := rfl
  have e2 : copies .nan ns = (ns.filter (fun n => n.score = .nan)).length := rfl
  omega

/-- A node with the score `s`, for examples. -/
def exNan (s : Fl Int) : Node (Fl Int) := ⟨[true], [], 1, 0, 0, s, true⟩

/-- The largest number is lost after `MaxItems` NaNs, and one NaN suffices that a larger number is dropped while a smaller
one is kept. -/
theorem C133_refuted :
    (∃ h, (newHighscore 3).insertAll [exNan .nan, exNan .nan, exNan .nan, exNan (.fin 5)] = some h ∧
      h.scores = [.nan, .nan, .nan]) ∧
    ∃ h, (newHighscore 4).insertAll [exNan (.fin 5), exNan .nan, exNan (.fin 3), exNan (.fin 6), exNan (.fin 1)] = some h ∧
      h.scores = [.fin 6, .fin 5, .nan, .fin 1] := by
  refine ⟨⟨_, rfl, by decide⟩, ⟨_, rfl, by decide⟩⟩

/-! ### Concrete histories -/

example : ((newHighscore 4).insertAll [exNan .nan, exNan (.fin 2), exNan .nan, exNan (.fin 7), exNan (.fin 3)]).map (·.scores)
    = some [.nan, .fin 7, .fin 3] := by decide

example : ((newHighscore 3).insertAll [exNan (.fin 2), exNan .nan, exNan .nan, exNan .negInf, exNan (.fin 9)]).map (·.scores)
    = some [.fin 9, .fin 2, .nan] := by decide

example : ∃ n ∈ ([exNan .nan, exNan (.fin 2), exNan .nan] : List (Node (Fl Int))).take (3 : Int).toNat, n.score ≠ .nan :=
  ⟨exNan (.fin 2), by decide, by decide⟩

example : ∀ n ∈ ([exNan .nan, exNan .nan, exNan (.fin 2)] : List (Node (Fl Int))).take (2 : Int).toNat, n.score = .nan := by
  decide

end GoSelect
