import Verif.Proofs.BruteForce
import Mathlib.Algebra.Order.Ring.Int

/-! C06, C07: `BruteForceSelect`, for every number of columns and every data set. -/

namespace GoSelect

open Spec
open scoped List

variable {α : Type} [LinearOrder α] [Zero α] [Neg α]

/-- `BruteForceSelect` always returns, and the list it returns contains every model with at least
one feature exactly once: `2 ^ ncols - 1` nodes with pairwise different models. -/
theorem C06_every_model_once (P : Problem α) :
    ∃ h, BruteForceReturns P h ∧ (h.items.map (·.model)).Nodup ∧
      (∀ m : List Bool, m ∈ h.items.map (·.model) ↔ m.length = P.ncols ∧ 0 < card m) ∧
      h.len + 1 = 2 ^ P.ncols := by
  obtain ⟨h, hist, hr, -, hit, hnd, hmem, hlen, -⟩ := brute_spec P
  have hp : (h.items.map (·.model)).Perm (hist.map (·.model)) := by
    rw [hit]; exact (ranking_perm hist).map _
  refine ⟨h, hr, hp.nodup_iff.2 hnd, fun m => by rw [hp.mem_iff]; exact hmem m, ?_⟩
  rw [Highscore.len, hit, ranking_length, hlen]

/-- Every node in the returned list carries the coefficients of the fit of its own model and the
negative AICc of that fit. -/
theorem C06_own_score (P : Problem α) (h : Highscore α) (hr : BruteForceReturns P h)
    (n : Node α) (hn : n ∈ h.items) :
    n.coeff = P.fit n.model ∧ n.score = -P.aicc (card n.model) P.nrows (P.rss n.model) := by
  obtain ⟨h', hist, hr', -, hit, -, -, -, hs⟩ := brute_spec P
  cases hr.unique hr'
  rw [hit] at hn
  exact hs n (mem_ranking.1 hn)

/-- The returned list is sorted by non-increasing score. -/
theorem C07_sorted (P : Problem α) (h : Highscore α) (hr : BruteForceReturns P h) :
    h.scores.Pairwise (fun a b => b ≤ a) := by
  obtain ⟨h', hist, hr', -, hit, -⟩ := brute_spec P
  cases hr.unique hr'
  rw [Highscore.scores, hit]
  exact scoresOf_desc (ranking_desc hist)

/-- `BestScore()` of the returned list is the largest negative AICc over all models with at least
one feature, and it is attained. -/
theorem C07_best (P : Problem α) (hc : 0 < P.ncols) (h : Highscore α)
    (hr : BruteForceReturns P h) :
    (∃ m : List Bool, m.length = P.ncols ∧ 0 < card m ∧
      h.bestScore = -P.aicc (card m) P.nrows (P.rss m)) ∧
    ∀ m : List Bool, m.length = P.ncols → 0 < card m →
      -P.aicc (card m) P.nrows (P.rss m) ≤ h.bestScore := by
  obtain ⟨h', hist, hr', -, hit, -, hmem, hlen, hs⟩ := brute_spec P
  cases hr.unique hr'
  have hd := ranking_desc hist
  cases hrk : ranking hist with
  | nil =>
    have h0 := ranking_length hist
    rw [hrk] at h0
    have h2 := Nat.pow_le_pow_right (n := 2) (by omega) hc
    simp at h0 h2
    omega
  | cons r rs =>
    have hb : h.bestScore = r.score := by simp [Highscore.bestScore, hit, hrk]
    have hrm : r ∈ hist := mem_ranking.1 (by simp [hrk])
    obtain ⟨a, b⟩ := (hmem r.model).1 (List.mem_map_of_mem hrm)
    refine ⟨⟨r.model, a, b, by rw [hb]; exact (hs r hrm).2⟩, fun m h1 h2 => ?_⟩
    obtain ⟨n, hn, rfl⟩ := List.mem_map.1 ((hmem m).2 ⟨h1, h2⟩)
    rw [← (hs n hn).2, hb]
    have : n ∈ ranking hist := mem_ranking.2 hn
    rw [hrk] at this hd
    rcases List.mem_cons.1 this with rfl | hm
    · exact le_rfl
    · exact (List.pairwise_cons.1 hd).1 n hm

/-- A small problem: 2 columns, "RSS" 5, 3, 1 for the three models, criterion `rss + 2 k`. -/
def exProblem : Problem Int where
  nrows := 4
  ncols := 2
  fit := fun m => List.replicate (card m) 1
  rss := fun m => if m = [true, false] then 5 else if m = [false, true] then 3 else 1
  aicc := fun k _ r => r + 2 * k

/-- The hypotheses are met: the run on `exProblem` returns a list with three nodes. -/
example : ∃ h, BruteForceReturns exProblem h ∧ h.scores = [-5, -5, -7] ∧
    h.items.map (·.model) = [[false, true], [true, true], [true, false]] := by
  refine ⟨_, .next rfl (.next rfl (.next rfl (.next rfl (.next rfl (.next rfl (.next rfl (.ret rfl))))))), ?_⟩
  decide

end GoSelect
