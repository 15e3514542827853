import Verif.Props.C83
import Mathlib.Data.Sign.Defs
import Mathlib.Data.Fintype.BigOperators
import Mathlib.Data.Fintype.Pi

/-!
# Between its events the LARS path has every combination of features and signs at most once
-/

namespace GoSelect

open Finset Spec

section
variable {K : Type} [Field K] [LinearOrder K]

/-- The part of the path between two events, at the regularisations `hi` and `lo`. -/
structure LarsPiece (K : Type) where
  E : List Nat
  sgn : Nat → K
  C : Nat → K
  D : Nat → K
  hi : K
  lo : K

/-- Strictly between its ends the coefficients have their signs and the other correlations are within their bounds; at the end
something happens. -/
structure LarsPiece.Ok (X : Mat K) (y : Nat → K) (p : LarsPiece K) : Prop where
  ne : p.E ≠ []
  range : ∀ i ∈ p.E, i < X.nc
  sgn : ∀ i ∈ p.E, p.sgn i = 1 ∨ p.sgn i = -1
  indep : Independent X p.E
  eqs : LarsEq X y p.E p.sgn p.C p.D
  lo_nonneg : 0 ≤ p.lo
  lo_lt : p.lo < p.hi
  act : ∀ m, p.lo < m → m < p.hi → ∀ i ∈ p.E, 0 < p.sgn i * (p.C i - m * p.D i)
  inact : ∀ m, p.lo < m → m < p.hi → ∀ i < X.nc, i ∉ p.E → |(larsXy X y i - gram X p.C i) + m * gram X p.D i| < m
  event : 0 < p.lo → (∃ i ∈ p.E, p.C i - p.lo * p.D i = 0) ∨
    ∃ i < X.nc, i ∉ p.E ∧ |(larsXy X y i - gram X p.C i) + p.lo * gram X p.D i| = p.lo

variable [IsStrictOrderedRing K]

/-- An iteration makes a piece. -/
theorem lars_piece {X : Mat K} {y : Nat → K} {tol : K} {s : LarsState K} {E : List Nat} {c d jts : List K}
    (hn : E.Nodup) (hr : ∀ i ∈ E, i < X.nc) (htol : 0 < tol) (htol' : tol < 10) (hl : 0 < s.lamb) (hne : E ≠ [])
    (hsgn : ∀ i ∈ E, s.allSigns i = 1 ∨ s.allSigns i = -1) (hsol : SolvesNormal X y E (E.map s.allSigns) c d)
    (hreg : LarsRegular X y tol s.lamb E (spread E c) (spread E d))
    (hg : LarsGood X y s.lamb E s.allSigns s.last (spread E c) (spread E d))
    (hj : tJoin X y tol s.lamb E c d s.last = some jts) :
    LarsPiece.Ok X y ⟨E, s.allSigns, spread E c, spread E d, s.lamb,
      max (maxJoinTime jts E).1 (maxTime (tCross tol s.lamb c d)).1⟩ := by
  have heq := larsEq_signs hn hr hsol
  obtain ⟨ht, hlt, hev⟩ := lars_times hn hr htol htol' hl hsol.lenC hreg hg hj
  have hlen : jts.length = X.nc := by simpa using mapM_length hj
  obtain ⟨j0, j1, -⟩ := maxJoinTime_spec jts E
  obtain ⟨c0, c1, -⟩ := maxTime_spec (tCross tol s.lamb c d)
  have hctk : (maxTime (tCross tol s.lamb c d)).2 < E.length := by
    rw [← hsol.lenC]
    apply cross_index
    intro h
    exact hne (List.eq_nil_of_length_eq_zero (by rw [← hsol.lenC, h]; rfl))
  generalize hjt : maxJoinTime jts E = jt at *
  generalize hct : maxTime (tCross tol s.lamb c d) = ct at *
  refine ⟨hne, hr, hsgn, hreg.indep, heq, le_trans j0 (le_max_left _ _), hlt, ?_, ?_, ?_⟩
  · intro m h1 h2 i hi
    exact active_sign_strict (hsgn i hi) (hg.act i hi) (fun hd => (ht.cross i hi hd).imp (fun h => lt_of_le_of_lt h h1) id) h2
  · intro m h1 h2 i hi hE
    obtain ⟨t0, t1, s', hs, ha, hlast⟩ := ht.join i hi hE
    exact cone_open hs t0 hl ha (good_cone hg hi hE hs hlast) (lt_of_le_of_lt t1 h1) h2
  · intro hpos
    simp only at hpos ⊢
    by_cases hcase : jt.1 > ct.1
    · right
      have hmax : max jt.1 ct.1 = jt.1 := max_eq_left (le_of_lt hcase)
      rw [hmax] at hpos ⊢
      obtain ⟨hjE, hjget⟩ := j1 hpos
      have hjn : jt.2 < X.nc := by rw [← hlen]; exact (List.getElem?_eq_some_iff.1 hjget).1
      have htj : jts.getD jt.2 0 = jt.1 := by rw [List.getD_eq_getElem?_getD, hjget]; rfl
      have h1 := (hev jt.2 hjn hjE).2
      rw [htj] at h1
      refine ⟨jt.2, hjn, hjE, ?_⟩
      rcases h1.2 with ⟨-, h⟩ | ⟨h, -⟩
      · rw [← corr_linear]
        exact h
      · exact absurd h hjE
    · left
      have hmax : max jt.1 ct.1 = ct.1 := max_eq_right (not_lt.1 hcase)
      rw [hmax] at hpos ⊢
      have hcross : d.getD ct.2 0 ≠ 0 ∧ ct.1 = c.getD ct.2 0 / d.getD ct.2 0 := by
        rcases c1 with ⟨h, -⟩ | ⟨-, h⟩
        · exact absurd h (ne_of_gt hpos)
        · unfold tCross at h
          rw [List.getElem?_map, Option.map_eq_some_iff] at h
          obtain ⟨a, ha, h2⟩ := h
          have ha2 : a = ct.2 := by
            rw [List.getElem?_range (by rw [hsol.lenC]; exact hctk)] at ha
            simpa using ha.symm
          subst ha2
          rcases crossTime_some h2 with h3 | ⟨h3, h4, -⟩
          · exact absurd h3 (ne_of_gt hpos)
          · exact ⟨h3, h4⟩
      have hidx : E.idxOf E[ct.2] = ct.2 := hn.idxOf_getElem _ hctk
      have hmem := List.getElem_mem hctk
      refine ⟨E[ct.2], hmem, ?_⟩
      have hC : spread E c E[ct.2] = c.getD ct.2 0 := by unfold spread; rw [if_pos hmem, hidx]
      have hD : spread E d E[ct.2] = d.getD ct.2 0 := by unfold spread; rw [if_pos hmem, hidx]
      rw [hC, hD, hcross.2, div_mul_cancel₀ _ hcross.1, sub_self]

/-- Two pieces with the same features and signs have the same coefficients. -/
theorem LarsPiece.Ok.same {X : Mat K} {y : Nat → K} {p q : LarsPiece K} (hp : p.Ok X y) (hq : q.Ok X y)
    (hE : ∀ i, i ∈ p.E ↔ i ∈ q.E) (hs : ∀ i ∈ p.E, p.sgn i = q.sgn i) : p.C = q.C ∧ p.D = q.D := by
  constructor
  · have := indep_unique hp.indep (w := fun i => p.C i - q.C i)
      (fun i hi => by rw [hp.eqs.suppC i hi, hq.eqs.suppC i (fun h => hi ((hE i).2 h)), sub_self])
      (fun i hi => by rw [gram_sub, hp.eqs.eqC i hi, hq.eqs.eqC i ((hE i).1 hi), sub_self])
    funext i
    exact sub_eq_zero.1 (this i)
  · have := indep_unique hp.indep (w := fun i => p.D i - q.D i)
      (fun i hi => by rw [hp.eqs.suppD i hi, hq.eqs.suppD i (fun h => hi ((hE i).2 h)), sub_self])
      (fun i hi => by rw [gram_sub, hp.eqs.eqD i hi, hq.eqs.eqD i ((hE i).1 hi), hs i hi, sub_self])
    funext i
    exact sub_eq_zero.1 (this i)

/-- What holds strictly at two regularisations holds between them. -/
theorem strict_between {a b m1 m2 m : K} (h1 : 0 < a - m1 * b) (h2 : 0 < a - m2 * b) (hm1 : m1 < m) (hm2 : m < m2) :
    0 < a - m * b := by
  by_contra hc
  rw [not_lt] at hc
  rcases le_or_gt 0 b with hb | hb
  · nlinarith
  · nlinarith

/-- A combination of features and signs does not come again further down the path. -/
theorem LarsPiece.Ok.not_again {X : Mat K} {y : Nat → K} {p q : LarsPiece K} (hp : p.Ok X y) (hq : q.Ok X y)
    (hpq : q.hi ≤ p.lo) (hE : ∀ i, i ∈ p.E ↔ i ∈ q.E) (hs : ∀ i ∈ p.E, p.sgn i = q.sgn i) : False := by
  obtain ⟨hC, hD⟩ := hp.same hq hE hs
  obtain ⟨m1, h11, h12⟩ := exists_between hq.lo_lt
  obtain ⟨m2, h21, h22⟩ := exists_between hp.lo_lt
  have hm1 : m1 < p.lo := lt_of_lt_of_le h12 hpq
  have hpos : 0 < p.lo := lt_of_le_of_lt (le_of_lt (lt_of_le_of_lt hq.lo_nonneg h11)) hm1
  rcases hp.event hpos with ⟨i, hi, h0⟩ | ⟨i, hi, hiE, h0⟩
  · have a1 := hq.act m1 h11 h12 i ((hE i).1 hi)
    have a2 := hp.act m2 h21 h22 i hi
    rw [← hC, ← hD, ← hs i hi] at a1
    have := strict_between (a := p.sgn i * p.C i) (b := p.sgn i * p.D i) (m1 := m1) (m2 := m2) (m := p.lo)
      (by linarith) (by linarith) hm1 h21
    have h3 : p.sgn i * p.C i - p.lo * (p.sgn i * p.D i) = p.sgn i * (p.C i - p.lo * p.D i) := by ring
    rw [h3, h0, mul_zero] at this
    exact lt_irrefl _ this
  · have a1 := abs_lt.1 (hq.inact m1 h11 h12 i hi (fun h => hiE ((hE i).2 h)))
    have a2 := abs_lt.1 (hp.inact m2 h21 h22 i hi hiE)
    rw [← hC, ← hD] at a1
    have u1 := strict_between (a := -(larsXy X y i - gram X p.C i)) (b := gram X p.D i - 1) (m1 := m1) (m2 := m2) (m := p.lo)
      (by linarith) (by linarith) hm1 h21
    have u2 := strict_between (a := larsXy X y i - gram X p.C i) (b := -gram X p.D i - 1) (m1 := m1) (m2 := m2) (m := p.lo)
      (by linarith) (by linarith) hm1 h21
    have : |(larsXy X y i - gram X p.C i) + p.lo * gram X p.D i| < p.lo := by
      rw [abs_lt]
      constructor <;> linarith
    exact absurd h0 (ne_of_lt this)

/-- The opposite signs do not come either. -/
theorem LarsPiece.Ok.not_opposite {X : Mat K} {y : Nat → K} {p q : LarsPiece K} (hp : p.Ok X y) (hq : q.Ok X y)
    (hE : ∀ i, i ∈ p.E ↔ i ∈ q.E) (hs : ∀ i ∈ p.E, p.sgn i = -q.sgn i) : False := by
  have hC : ∀ i, p.C i = q.C i := by
    have := indep_unique hp.indep (w := fun i => p.C i - q.C i)
      (fun i hi => by rw [hp.eqs.suppC i hi, hq.eqs.suppC i (fun h => hi ((hE i).2 h)), sub_self])
      (fun i hi => by rw [gram_sub, hp.eqs.eqC i hi, hq.eqs.eqC i ((hE i).1 hi), sub_self])
    exact fun i => sub_eq_zero.1 (this i)
  have hneg : ∀ i, gram X (fun j => -q.D j) i = - gram X q.D i := by
    intro i
    have h1 := gram_sub X (fun _ => 0) q.D i
    have h2 : gram X (fun _ => (0 : K)) i = 0 := by unfold gram; simp
    rw [h2, zero_sub] at h1
    rw [← h1]
    congr 1
    funext j
    ring
  have hD : ∀ i, p.D i = -q.D i := by
    have := indep_unique hp.indep (w := fun i => p.D i - -q.D i)
      (fun i hi => by rw [hp.eqs.suppD i hi, hq.eqs.suppD i (fun h => hi ((hE i).2 h)), neg_zero, sub_self])
      (fun i hi => by
        rw [gram_sub X p.D (fun j => -q.D j), hneg, hp.eqs.eqD i hi, hq.eqs.eqD i ((hE i).1 hi), hs i hi, sub_self])
    exact fun i => sub_eq_zero.1 (this i)
  obtain ⟨m1, h11, h12⟩ := exists_between hq.lo_lt
  obtain ⟨m2, h21, h22⟩ := exists_between hp.lo_lt
  have hm1 : 0 < m1 := lt_of_le_of_lt hq.lo_nonneg h11
  have hm2 : 0 < m2 := lt_of_le_of_lt hp.lo_nonneg h21
  have hlt : ∀ i ∈ p.E, p.D i * p.sgn i < 0 := by
    intro i hi
    have a1 := hq.act m1 h11 h12 i ((hE i).1 hi)
    have a2 := hp.act m2 h21 h22 i hi
    have e1 : q.sgn i = -p.sgn i := by rw [hs i hi]; ring
    have e2 : q.D i = -p.D i := by rw [hD i]; ring
    rw [e1, ← hC, e2] at a1
    nlinarith
  have hzero := indep_zero hp.indep (w := p.D) hp.eqs.suppD (by
    refine Finset.sum_nonpos (fun i _ => ?_)
    by_cases hi : i ∈ p.E
    · rw [hp.eqs.eqD i hi]
      exact le_of_lt (hlt i hi)
    · rw [hp.eqs.suppD i hi, zero_mul])
  obtain ⟨i, hi⟩ := List.exists_mem_of_ne_nil _ hp.ne
  have := hlt i hi
  rw [hzero i, zero_mul] at this
  exact lt_irrefl _ this

/-- The features and signs of a piece. -/
def LarsPiece.pattern (n : Nat) (p : LarsPiece K) (i : Fin n) : SignType :=
  if i.val ∈ p.E then (if p.sgn i = 1 then 1 else -1) else 0

theorem LarsPiece.Ok.pattern_inj {X : Mat K} {y : Nat → K} {p q : LarsPiece K} (hp : p.Ok X y) (hq : q.Ok X y)
    (h : p.pattern X.nc = q.pattern X.nc) : (∀ i, i ∈ p.E ↔ i ∈ q.E) ∧ ∀ i ∈ p.E, p.sgn i = q.sgn i := by
  have hc : ∀ i, i < X.nc → (i ∈ p.E ↔ i ∈ q.E) ∧ (i ∈ p.E → p.sgn i = q.sgn i) := by
    intro i hi
    have h1 := congrFun h ⟨i, hi⟩
    simp only [LarsPiece.pattern] at h1
    by_cases h2 : i ∈ p.E <;> by_cases h3 : i ∈ q.E
    · refine ⟨⟨fun _ => h3, fun _ => h2⟩, fun _ => ?_⟩
      rw [if_pos h2, if_pos h3] at h1
      have hne : (1 : K) ≠ -1 := by
        intro h
        have : (0 : K) < 1 := one_pos
        linarith
      rcases hp.sgn i h2 with h4 | h4 <;> rcases hq.sgn i h3 with h5 | h5
      · rw [h4, h5]
      · rw [h4, h5, if_pos rfl, if_neg hne.symm] at h1
        exact absurd h1 (by decide)
      · rw [h4, h5, if_pos rfl, if_neg hne.symm] at h1
        exact absurd h1 (by decide)
      · rw [h4, h5]
    · rw [if_pos h2, if_neg h3] at h1
      split at h1 <;> exact absurd h1 (by decide)
    · rw [if_neg h2, if_pos h3] at h1
      split at h1 <;> exact absurd h1 (by decide)
    · exact ⟨⟨fun h => absurd h h2, fun h => absurd h h3⟩, fun h => absurd h h2⟩
  refine ⟨fun i => ⟨fun hi => ((hc i (hp.range i hi)).1).1 hi, fun hi => ((hc i (hq.range i hi)).1).2 hi⟩, fun i hi => ?_⟩
  exact (hc i (hp.range i hi)).2 hi

theorem LarsPiece.Ok.pattern_neg {X : Mat K} {y : Nat → K} {p q : LarsPiece K} (hp : p.Ok X y) (hq : q.Ok X y) :
    p.pattern X.nc ≠ fun i => -q.pattern X.nc i := by
  intro h
  have hne : (1 : K) ≠ -1 := by
    intro h
    have : (0 : K) < 1 := one_pos
    linarith
  have hc : ∀ i, i < X.nc → (i ∈ p.E ↔ i ∈ q.E) ∧ (i ∈ p.E → p.sgn i = -q.sgn i) := by
    intro i hi
    have h1 := congrFun h ⟨i, hi⟩
    simp only [LarsPiece.pattern] at h1
    by_cases h2 : i ∈ p.E <;> by_cases h3 : i ∈ q.E
    · refine ⟨⟨fun _ => h3, fun _ => h2⟩, fun _ => ?_⟩
      rw [if_pos h2, if_pos h3] at h1
      rcases hp.sgn i h2 with h4 | h4 <;> rcases hq.sgn i h3 with h5 | h5
      · rw [h4, h5, if_pos rfl] at h1
        exact absurd h1 (by decide)
      · rw [h4, h5, neg_neg]
      · rw [h4, h5]
      · rw [h4, h5, if_neg hne.symm] at h1
        exact absurd h1 (by decide)
    · rw [if_pos h2, if_neg h3] at h1
      split at h1 <;> exact absurd h1 (by decide)
    · rw [if_neg h2, if_pos h3] at h1
      split at h1 <;> exact absurd h1 (by decide)
    · exact ⟨⟨fun h => absurd h h2, fun h => absurd h h3⟩, fun h => absurd h h2⟩
  exact hp.not_opposite hq
    (fun i => ⟨fun hi => ((hc i (hp.range i hi)).1).1 hi, fun hi => ((hc i (hq.range i hi)).1).2 hi⟩)
    (fun i hi => (hc i (hp.range i hi)).2 hi)

theorem LarsPiece.Ok.pattern_ne_zero {X : Mat K} {y : Nat → K} {p : LarsPiece K} (hp : p.Ok X y) :
    p.pattern X.nc ≠ fun _ => 0 := by
  intro h
  obtain ⟨i, hi⟩ := List.exists_mem_of_ne_nil _ hp.ne
  have h1 := congrFun h ⟨i, hp.range i hi⟩
  simp only [LarsPiece.pattern] at h1
  rw [if_pos hi] at h1
  split at h1 <;> exact absurd h1 (by decide)

/-- There are at most half as many pieces as combinations of features and signs. -/
theorem pieces_card {X : Mat K} {y : Nat → K} {l : List (LarsPiece K)} (hok : ∀ p ∈ l, p.Ok X y)
    (hp : l.Pairwise (fun p q => q.hi ≤ p.lo)) : 2 * l.length + 1 ≤ 3 ^ X.nc := by
  classical
  have hnd : (l.map (LarsPiece.pattern X.nc)).Nodup := by
    rw [List.Nodup, List.pairwise_map]
    refine List.Pairwise.imp_of_mem (fun hp hq hle h => ?_) hp
    obtain ⟨h1, h2⟩ := (hok _ hp).pattern_inj (hok _ hq) h
    exact (hok _ hp).not_again (hok _ hq) hle h1 h2
  let S : Finset (Fin X.nc → SignType) := (l.map (LarsPiece.pattern X.nc)).toFinset
  have hS : S.card = l.length := by rw [List.toFinset_card_of_nodup hnd, List.length_map]
  let T : Finset (Fin X.nc → SignType) := S.image (fun f i => -f i)
  have hT : T.card = l.length := by
    rw [Finset.card_image_of_injective, hS]
    intro f g h
    funext i
    have := congrFun h i
    simpa using this
  have hmem : ∀ f ∈ S, ∃ p ∈ l, p.pattern X.nc = f := by
    intro f hf
    exact List.mem_map.1 (List.mem_toFinset.1 hf)
  have hdisj : Disjoint S T := by
    rw [Finset.disjoint_left]
    intro f hf hf'
    obtain ⟨p, hp, rfl⟩ := hmem f hf
    obtain ⟨g, hg, h⟩ := Finset.mem_image.1 hf'
    obtain ⟨q, hq, rfl⟩ := hmem g hg
    exact (hok p hp).pattern_neg (hok q hq) h.symm
  have hzero : (fun _ => 0 : Fin X.nc → SignType) ∉ S ∪ T := by
    intro h
    rcases Finset.mem_union.1 h with h | h
    · obtain ⟨p, hp, h⟩ := hmem _ h
      exact (hok p hp).pattern_ne_zero h
    · obtain ⟨g, hg, h⟩ := Finset.mem_image.1 h
      obtain ⟨p, hp, rfl⟩ := hmem g hg
      refine (hok p hp).pattern_ne_zero (funext fun i => ?_)
      have := congrFun h i
      simpa using this
  have hc := Finset.card_le_univ (insert (fun _ => 0 : Fin X.nc → SignType) (S ∪ T))
  rw [Finset.card_insert_of_notMem hzero, Finset.card_union_of_disjoint hdisj, hS, hT, Fintype.card_fun, Fintype.card_fin] at hc
  have h3 : Fintype.card SignType = 3 := rfl
  rw [h3] at hc
  omega

/-- Pieces with the features `S`: at most half as many as there are signs for them. -/
theorem pieces_sel {X : Mat K} {y : Nat → K} {S : List Nat} {l : List (LarsPiece K)} (hok : ∀ p ∈ l, p.Ok X y)
    (hS : ∀ p ∈ l, p.E = S) (hp : l.Pairwise (fun p q => q.hi ≤ p.lo)) : 2 * l.length ≤ 2 ^ S.length := by
  classical
  have hne : (1 : K) ≠ -1 := by
    intro h
    have : (0 : K) < 1 := one_pos
    linarith
  let pat : LarsPiece K → Fin S.length → Bool := fun p k => decide (p.sgn S[k] = 1)
  have hget : ∀ p ∈ l, ∀ i ∈ p.E, ∃ k : Fin S.length, S[k] = i := by
    intro p hp i hi
    rw [hS p hp] at hi
    obtain ⟨k, hk, h⟩ := List.mem_iff_getElem.1 hi
    exact ⟨⟨k, hk⟩, h⟩
  have hEq : ∀ p ∈ l, ∀ q ∈ l, ∀ i, i ∈ p.E ↔ i ∈ q.E := fun p hp q hq i => by rw [hS p hp, hS q hq]
  have hnd : (l.map pat).Nodup := by
    rw [List.Nodup, List.pairwise_map]
    refine List.Pairwise.imp_of_mem (fun {p q} hp hq hle h => ?_) hp
    refine (hok _ hp).not_again (hok _ hq) hle (hEq p hp q hq) (fun i hi => ?_)
    obtain ⟨k, rfl⟩ := hget p hp i hi
    have h1 : decide (p.sgn S[k] = 1) = decide (q.sgn S[k] = 1) := congrFun h k
    have h2 := decide_eq_decide.1 h1
    rcases (hok _ hp).sgn _ hi with h3 | h3 <;> rcases (hok _ hq).sgn _ ((hEq p hp q hq _).1 hi) with h4 | h4
    · rw [h3, h4]
    · exact absurd (h4.symm.trans (h2.1 h3)).symm hne
    · exact absurd (h3.symm.trans (h2.2 h4)).symm hne
    · rw [h3, h4]
  let A : Finset (Fin S.length → Bool) := (l.map pat).toFinset
  have hA : A.card = l.length := by rw [List.toFinset_card_of_nodup hnd, List.length_map]
  let B : Finset (Fin S.length → Bool) := A.image (fun f i => !f i)
  have hB : B.card = l.length := by
    rw [Finset.card_image_of_injective, hA]
    intro f g h
    funext i
    have := congrFun h i
    simpa using this
  have hmem : ∀ f ∈ A, ∃ p ∈ l, pat p = f := by
    intro f hf
    exact List.mem_map.1 (List.mem_toFinset.1 hf)
  have hdisj : Disjoint A B := by
    rw [Finset.disjoint_left]
    intro f hf hf'
    obtain ⟨p, hp, rfl⟩ := hmem f hf
    obtain ⟨g, hg, h⟩ := Finset.mem_image.1 hf'
    obtain ⟨q, hq, rfl⟩ := hmem g hg
    refine (hok p hp).not_opposite (hok q hq) (hEq p hp q hq) (fun i hi => ?_)
    obtain ⟨k, rfl⟩ := hget p hp i hi
    have h1 : (!decide (q.sgn S[k] = 1)) = decide (p.sgn S[k] = 1) := congrFun h k
    rcases (hok _ hp).sgn _ hi with h3 | h3 <;> rcases (hok _ hq).sgn _ ((hEq p hp q hq _).1 hi) with h4 | h4
    · rw [h3, h4] at h1
      simp at h1
    · rw [h3, h4, neg_neg]
    · rw [h3, h4]
    · rw [h3, h4] at h1
      simp [hne.symm] at h1
  have hc := Finset.card_le_univ (A ∪ B)
  rw [Finset.card_union_of_disjoint hdisj, hA, hB, Fintype.card_fun, Fintype.card_fin, Fintype.card_bool] at hc
  omega

end

end GoSelect
