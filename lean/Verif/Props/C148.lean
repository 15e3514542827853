import Verif.Proofs.KappaFl
import Verif.Proofs.Binary64
import Verif.Props.C41

/-!
# C148: Cohen's kappa in floating point
-/

namespace GoSelect

open Spec

/-- The two selections have the same members. -/
def Spec.Agree (s : List Int × List Int) : Prop := ∀ v, v ∈ s.1 ↔ v ∈ s.2

/-- Two selections of `n` features that do not both consist of all features. -/
structure Spec.Sample (n : Nat) (s : List Int × List Int) : Prop where
  fst : IsSelection s.1 n
  snd : IsSelection s.2 n
  notFull : ¬ (0 < n ∧ s.1.length = n ∧ s.2.length = n)

theorem quot_fin {rnd : ℝ → ℝ} {a b : ℝ} (hb : b ≠ 0) (h : |rnd (a / b)| ≤ 4096) : quotFl rnd (.fin a) (.fin b) = .fin (rnd (a / b)) := by
  unfold quotFl
  rw [div_fin hb]
  exact ovf_fin (small_lt h le_rfl)

/-- The steps of `CohenKappa`. -/
theorem kappa_run {rnd : ℝ → ℝ} {u t : ℝ} (hr : RoundOff rnd u t) (hu : 0 ≤ u) (ht : 0 ≤ t) {n : Nat} (hn : n ≤ 2 ^ 26)
    (hsmall : 64 * n * (u + t) ≤ 1) {s1 s2 : List Int} (h : Sample n (s1, s2)) (hne : ¬ (s1.length = 0 ∧ s2.length = 0)) :
    ∃ a b c d : Nat, a + b + c + d = n ∧ 1 ≤ n ∧ kappaCounts s1 s2 n = ⟨a, b, c, d⟩ ∧
      (n : ℝ) ≤ ((a : ℝ) + b) * (b + d) + ((a : ℝ) + c) * (c + d) ∧
      cohenKappaFl rnd s1 s2 n = .fin (rnd (rnd (rnd (((a : ℝ) + d) / n) - rnd (rnd (((a : ℝ) + b) * (a + c) / (n * n)) +
        rnd (((b : ℝ) + d) * (c + d) / (n * n)))) / rnd (1 - rnd (rnd (((a : ℝ) + b) * (a + c) / (n * n)) +
        rnd (((b : ℝ) + d) * (c + d) / (n * n)))))) ∧
      |rnd (rnd (rnd (((a : ℝ) + d) / n) - rnd (rnd (((a : ℝ) + b) * (a + c) / (n * n)) +
        rnd (((b : ℝ) + d) * (c + d) / (n * n)))) / rnd (1 - rnd (rnd (((a : ℝ) + b) * (a + c) / (n * n)) +
        rnd (((b : ℝ) + d) * (c + d) / (n * n)))))
        - ((((a : ℝ) + d) / n) - (((a : ℝ) + b) * (a + c) / (n * n) + ((b : ℝ) + d) * (c + d) / (n * n))) /
          (1 - (((a : ℝ) + b) * (a + c) / (n * n) + ((b : ℝ) + d) * (c + d) / (n * n)))| ≤ 46 * n * (u + t) := by
  obtain ⟨h1, h2, h3⟩ := h
  simp only at h1 h2 h3
  have hsum := kappaCounts_sum h1 h2
  have l1 : (kappaCounts s1 s2 n).n11 + (kappaCounts s1 s2 n).n12 = s1.length := by
    have := countP_notin (s := s1) (t := s2)
    simp only [kappaCounts]; omega
  have l2 : (kappaCounts s1 s2 n).n11 + (kappaCounts s1 s2 n).n21 = s2.length := by
    have := countP_notin (s := s2) (t := s1)
    have := countP_inter h1.1 h2.1
    simp only [kappaCounts]; omega
  rcases hk : kappaCounts s1 s2 n with ⟨a, b, c, d⟩
  rw [hk] at hsum l1 l2
  simp only at hsum l1 l2
  have hn1 : 1 ≤ n := by omega
  have hnat : a + b + c + d ≤ (a + b) * (b + d) + (a + c) * (c + d) := by
    rcases Nat.eq_zero_or_pos b with rfl | hb
    · rcases Nat.eq_zero_or_pos c with rfl | hc
      · have ha : 1 ≤ a := by omega
        have hd : 1 ≤ d := by
          by_contra hd
          exact h3 ⟨by omega, by omega, by omega⟩
        nlinarith
      · nlinarith
    · nlinarith [Nat.zero_le (a * c), Nat.zero_le (c * d), Nat.zero_le (a * d), Nat.le_mul_self c]
  have hreal : (n : ℝ) ≤ ((a : ℝ) + b) * (b + d) + ((a : ℝ) + c) * (c + d) := by
    rw [hsum] at hnat
    exact_mod_cast hnat
  have hsumR : (a : ℝ) + b + c + d = n := by exact_mod_cast hsum
  have hn1R : (1 : ℝ) ≤ n := by exact_mod_cast hn1
  have hnn0 : (n : ℝ) ≠ 0 := by linarith
  obtain ⟨hx, hy, hxy, hA, hA1, -⟩ := proportions hn1R (Nat.cast_nonneg a) (Nat.cast_nonneg b) (Nat.cast_nonneg c)
    (Nat.cast_nonneg d) hsumR hreal
  obtain ⟨k1, k2, k3, k4, k5, k6, k7, k8⟩ := kappa_rounded hr hu ht hn1R hsmall hx hy hxy hA hA1
  -- the exact kappa
  obtain ⟨k, hk1, hk2, hk3, -⟩ := C40_range_partial (K := ℝ) s1 s2 n h1 h2 h3
  have hD0 : 1 / (n : ℝ) ≤ 1 - (((a : ℝ) + b) * (a + c) / (n * n) + ((b : ℝ) + d) * (c + d) / (n * n)) := by linarith
  have hDpos : 0 < 1 - (((a : ℝ) + b) * (a + c) / (n * n) + ((b : ℝ) + d) * (c + d) / (n * n)) :=
    lt_of_lt_of_le (by positivity) hD0
  have hkval : ((((a : ℝ) + d) / n) - (((a : ℝ) + b) * (a + c) / (n * n) + ((b : ℝ) + d) * (c + d) / (n * n))) /
          (1 - (((a : ℝ) + b) * (a + c) / (n * n) + ((b : ℝ) + d) * (c + d) / (n * n))) = k := by
    unfold cohenKappa at hk1
    rw [if_neg hne, if_neg (by omega)] at hk1
    simp only [hk, prA, prE] at hk1
    push_cast at hk1
    rw [Fl.divFin, if_neg hDpos.ne', Fl.fin.injEq] at hk1
    exact hk1
  have hN : |(((a : ℝ) + d) / n) - (((a : ℝ) + b) * (a + c) / (n * n) + ((b : ℝ) + d) * (c + d) / (n * n))| ≤
      1 - (((a : ℝ) + b) * (a + c) / (n * n) + ((b : ℝ) + d) * (c + d) / (n * n)) := by
    rw [div_eq_iff hDpos.ne'] at hkval
    rw [hkval, abs_mul, abs_of_pos hDpos]
    have : |k| ≤ 1 := abs_le.2 ⟨hk2, hk3⟩
    calc _ ≤ 1 * (1 - (((a : ℝ) + b) * (a + c) / (n * n) + ((b : ℝ) + d) * (c + d) / (n * n))) :=
          mul_le_mul_of_nonneg_right this hDpos.le
      _ = _ := one_mul _
  obtain ⟨-, q2⟩ := kappa_quot hr hu ht hn1R hsmall hD0 hN k4 k7 k6
  refine ⟨a, b, c, d, hsum, hn1, rfl, hreal, ?_, q2⟩
  -- the run
  have hcast : ∀ k : Nat, k ≤ 2 ^ 53 → natFl rnd k = .fin k := fun k hk => by unfold natFl; rw [hr.nat hk]
  have hbig : n * n ≤ 2 ^ 53 := (Nat.mul_le_mul hn hn).trans (by norm_num)
  have hle : ∀ p q : Nat, p ≤ n → q ≤ n → p * q ≤ 2 ^ 53 := fun p q hp hq => (Nat.mul_le_mul hp hq).trans hbig
  have hxle : ((a : ℝ) + b) * (a + c) / (n * n) ≤ 1 := by
    have : 0 < 1 / (n : ℝ) := by positivity
    linarith
  have hyle : ((b : ℝ) + d) * (c + d) / (n * n) ≤ 1 := by
    have : 0 < 1 / (n : ℝ) := by positivity
    linarith
  have b01 : ∀ z : ℝ, 0 ≤ z → z ≤ 1 → |rnd z| ≤ 4096 := fun z h0 h1 => by
    rw [abs_of_nonneg (hr.nonneg h0)]; linarith [hr.le_one h1]
  unfold cohenKappaFl
  rw [if_neg hne]
  simp only [hk]
  rw [hcast (a + d) (by omega), hcast n (by omega), hcast ((a + b) * (a + c)) (hle _ _ (by omega) (by omega)),
    hcast ((b + d) * (c + d)) (hle _ _ (by omega) (by omega)), hcast (n * n) hbig]
  push_cast
  have hnn : (n : ℝ) * n ≠ 0 := mul_ne_zero hnn0 hnn0
  rw [quot_fin hnn0 (b01 _ hA hA1), quot_fin hnn (b01 _ hx hxle), quot_fin hnn (b01 _ hy hyle)]
  have hE1 : roundFl rnd (.fin (rnd (((a : ℝ) + b) * (a + c) / (n * n)) + rnd (((b : ℝ) + d) * (c + d) / (n * n)))) =
      .fin (rnd (rnd (((a : ℝ) + b) * (a + c) / (n * n)) + rnd (((b : ℝ) + d) * (c + d) / (n * n)))) := by
    refine ovf_fin (small_lt (c := 1) ?_ (by norm_num))
    rw [abs_of_nonneg k1]
    have : 0 < 1 / (2 * (n : ℝ)) := by positivity
    linarith
  have hadd : ∀ p q : ℝ, Fl.add (.fin p) (.fin q) = .fin (p + q) := fun _ _ => rfl
  have hsub : ∀ p q : ℝ, Fl.sub (.fin p) (.fin q) = .fin (p - q) := fun p q => by
    simp only [Fl.sub, Fl.neg, Fl.add, ← sub_eq_add_neg]
  rw [hadd, hE1]
  generalize rnd (rnd (((a : ℝ) + b) * (a + c) / (n * n)) + rnd (((b : ℝ) + d) * (c + d) / (n * n))) = E at *
  have hN1 : roundFl rnd (.fin (rnd (((a : ℝ) + d) / n) - E)) = .fin (rnd (rnd (((a : ℝ) + d) / n) - E)) :=
    ovf_fin (small_lt k8 (by norm_num))
  have hD4 : 0 < 1 / (4 * (n : ℝ)) := by positivity
  have hD1 : roundFl rnd (.fin (1 - E)) = .fin (rnd (1 - E)) :=
    ovf_fin (small_lt (c := 1) (by rw [abs_of_nonneg (by linarith)]; exact k5) (by norm_num))
  rw [hsub, hsub, hN1, hD1]
  refine quot_fin (by linarith) ?_
  have hq := abs_le.1 q2
  rw [hkval] at hq
  have h46 : 46 * (n : ℝ) * (u + t) ≤ 1 := by
    have : 0 ≤ (n : ℝ) * (u + t) := by positivity
    linarith
  rw [abs_le]
  constructor <;> linarith

/-- The members of two selections are the same exactly when the counters of the differences are 0. -/
theorem agree_iff {s1 s2 : List Int} {n a b c d : Nat} (h1 : s1.Nodup) (h2 : s2.Nodup) (hk : kappaCounts s1 s2 n = ⟨a, b, c, d⟩) :
    Agree (s1, s2) ↔ b + c = 0 := by
  unfold kappaCounts at hk
  rw [Counts.mk.injEq] at hk
  obtain ⟨-, hb, hc, -⟩ := hk
  have e1 : b = 0 ↔ ∀ v ∈ s1, v ∈ s2 := by
    rw [← hb, List.countP_eq_zero]
    simp [existInt_iff]
  have e2 : c = 0 ↔ ∀ v ∈ s2, v ∈ s1 := by
    rw [← hc, List.countP_eq_zero]
    simp [existInt_iff]
  rw [Nat.add_eq_zero_iff, e1, e2]
  exact ⟨fun h => ⟨fun v hv => (h v).1 hv, fun v hv => (h v).2 hv⟩, fun h v => ⟨h.1 v, h.2 v⟩⟩

/-- The value of `CohenKappa` is a number close to the exact one; it is exactly 1 when the selections agree, and otherwise at most
`1 - 1 / (8 n)`. -/
theorem C148_kappa {rnd : ℝ → ℝ} {u t : ℝ} (hr : RoundOff rnd u t) (hu : 0 ≤ u) (ht : 0 ≤ t) {n : Nat} (hn : n ≤ 2 ^ 26)
    (hsmall : 64 * n * (u + t) ≤ 1) {s1 s2 : List Int} (h : Sample n (s1, s2)) :
    ∃ x k : ℝ, cohenKappaFl rnd s1 s2 n = .fin x ∧ cohenKappa s1 s2 n = .fin k ∧ |x - k| ≤ 46 * n * (u + t) ∧
      (Agree (s1, s2) → x = 1) ∧ (¬ Agree (s1, s2) → x ≤ 1 - 1 / (8 * n)) := by
  by_cases hne : s1.length = 0 ∧ s2.length = 0
  · have hag : Agree (s1, s2) := by
      intro v
      simp [List.eq_nil_of_length_eq_zero hne.1, List.eq_nil_of_length_eq_zero hne.2]
    refine ⟨1, 1, by unfold cohenKappaFl; rw [if_pos hne], by unfold cohenKappa; rw [if_pos hne], ?_, fun _ => rfl, fun h => absurd hag h⟩
    rw [sub_self, abs_zero]
    positivity
  obtain ⟨a, b, c, d, hsum, hn1, hk, hreal, hrun, hacc⟩ := kappa_run hr hu ht hn hsmall h hne
  have hsumR : (a : ℝ) + b + c + d = n := by exact_mod_cast hsum
  have hn1R : (1 : ℝ) ≤ n := by exact_mod_cast hn1
  obtain ⟨hx, hy, hxy, hA, hA1, hA2⟩ := proportions hn1R (Nat.cast_nonneg a) (Nat.cast_nonneg b) (Nat.cast_nonneg c)
    (Nat.cast_nonneg d) hsumR hreal
  obtain ⟨k1, k2, k3, k4, k5, k6, k7, k8⟩ := kappa_rounded hr hu ht hn1R hsmall hx hy hxy hA hA1
  have hinv : 0 < 1 / (n : ℝ) := by positivity
  have hD0 : (1 - (((a : ℝ) + b) * (a + c) / (n * n) + ((b : ℝ) + d) * (c + d) / (n * n))) ≠ 0 := by
    have : 0 < 1 - (((a : ℝ) + b) * (a + c) / (n * n) + ((b : ℝ) + d) * (c + d) / (n * n)) := by linarith
    exact this.ne'
  refine ⟨_, _, hrun, ?_, hacc, ?_, ?_⟩
  · unfold cohenKappa
    rw [if_neg hne, if_neg (by omega)]
    simp only [hk, prA, prE]
    push_cast
    rw [Fl.divFin, if_neg hD0]
  · intro hag
    have hbc := (agree_iff h.fst.1 h.snd.1 hk).1 hag
    have hb : b = 0 := by omega
    have hc : c = 0 := by omega
    subst hb hc
    have e1 : (((a : ℝ) + d) / n) = 1 := by
      rw [div_eq_one_iff_eq (by linarith)]
      push_cast at hsumR
      linarith
    rw [e1, hr.one]
    have hne0 : rnd (1 - rnd (rnd (((a : ℝ) + (0 : Nat)) * (a + (0 : Nat)) / (n * n)) + rnd ((((0 : Nat) : ℝ) + d) * ((0 : Nat) + d) / (n * n)))) ≠ 0 := by
      have : 0 < 1 / (4 * (n : ℝ)) := by positivity
      exact (lt_of_lt_of_le this k4).ne'
    rw [div_self hne0, hr.one]
  · intro hag
    have hbc : 1 ≤ b + c := by
      by_contra hc
      exact hag ((agree_iff h.fst.1 h.snd.1 hk).2 (by omega))
    exact kappa_below hr hu ht hn1R hsmall k1 k3 hA (hA2 (by exact_mod_cast hbc))

/-- If both selections consist of all features the value is NaN, as in C40. -/
theorem C148_full {rnd : ℝ → ℝ} {u t : ℝ} (hr : RoundOff rnd u t) {n : Nat} (hn : n ≤ 2 ^ 26) {s1 s2 : List Int} (hpos : 0 < n)
    (h1 : IsSelection s1 n) (h2 : IsSelection s2 n) (hf1 : s1.length = n) (hf2 : s2.length = n) :
    cohenKappaFl rnd s1 s2 n = .nan := by
  have hsum := kappaCounts_sum h1 h2
  have l1 : (kappaCounts s1 s2 n).n11 + (kappaCounts s1 s2 n).n12 = s1.length := by
    have := countP_notin (s := s1) (t := s2)
    simp only [kappaCounts]; omega
  have l2 : (kappaCounts s1 s2 n).n11 + (kappaCounts s1 s2 n).n21 = s2.length := by
    have := countP_notin (s := s2) (t := s1)
    have := countP_inter h1.1 h2.1
    simp only [kappaCounts]; omega
  rcases hk : kappaCounts s1 s2 n with ⟨a, b, c, d⟩
  rw [hk] at hsum l1 l2
  simp only at hsum l1 l2
  have hb : b = 0 := by omega
  have hc : c = 0 := by omega
  have hd : d = 0 := by omega
  have ha : a = n := by omega
  subst hb hc hd ha
  have hnn0 : (a : ℝ) ≠ 0 := by exact_mod_cast hpos.ne'
  have hcast : ∀ k : Nat, k ≤ 2 ^ 53 → natFl rnd k = .fin k := fun k hk => by unfold natFl; rw [hr.nat hk]
  have hbig : a * a ≤ 2 ^ 53 := (Nat.mul_le_mul hn hn).trans (by norm_num)
  have hone : ∀ z : ℝ, z ≠ 0 → quotFl rnd (.fin z) (.fin z) = .fin 1 := fun z hz => by
    rw [quot_fin hz (by rw [div_self hz, hr.one]; norm_num), div_self hz, hr.one]
  unfold cohenKappaFl
  rw [if_neg (by omega)]
  simp only [hk, Nat.add_zero]
  rw [hcast a (by omega), hcast (a * a) hbig, hcast (0 * 0) (by norm_num), hone _ hnn0, hone _ (by push_cast; exact mul_ne_zero hnn0 hnn0),
    quot_fin (by push_cast; exact mul_ne_zero hnn0 hnn0) (by simp [hr.zero])]
  have e0 : rnd (((0 * 0 : Nat) : ℝ) / ((a * a : Nat) : ℝ)) = 0 := by simp [hr.zero]
  have e1 : roundFl rnd (Fl.add (.fin 1) (.fin 0)) = .fin 1 := by
    show Log2Lib.ovf (rnd (1 + 0)) = _
    rw [add_zero, hr.one]
    exact ovf_fin (small_lt (c := 1) (by norm_num) (by norm_num))
  have e2 : roundFl rnd (Fl.sub (.fin 1) (.fin 1)) = .fin 0 := by
    show Log2Lib.ovf (rnd (1 + -1)) = _
    rw [add_neg_cancel, hr.zero]
    exact ovf_fin (small_lt (c := 1) (by norm_num) (by norm_num))
  rw [e0, e1, e2]
  simp [quotFl, Fl.div, Fl.divFin, roundFl]

theorem kappa_fold {rnd : ℝ → ℝ} {u t : ℝ} (hr : RoundOff rnd u t) (hu : 0 ≤ u) (ht : 0 ≤ t) {n M : Nat} (hn1 : 1 ≤ n) (hn : n ≤ 2 ^ 26)
    (hsmall : 64 * n * (u + t) ≤ 1) (hM : M ≤ 2 ^ 26) (l : List (List Int × List Int)) (hl : ∀ x ∈ l, Sample n x) (i : Nat) (s : ℝ)
    (hs1 : -(2 * i) ≤ s) (hs2 : s ≤ i) (hi : i + l.length ≤ M) :
    ∃ s', l.foldl (fun kappa x => roundFl rnd (Fl.add kappa (cohenKappaFl rnd x.1 x.2 n))) (.fin s) = .fin s' ∧
      -(2 * ((i + l.length : Nat) : ℝ)) ≤ s' ∧ s' ≤ ((i + l.length : Nat) : ℝ) ∧
      (s = i → (∀ x ∈ l, Agree x) → s' = ((i + l.length : Nat) : ℝ)) ∧
      ((s ≤ i - 1 / (8 * n) + i * (u * M + t) ∨ ∃ x ∈ l, ¬ Agree x) →
        s' ≤ ((i + l.length : Nat) : ℝ) - 1 / (8 * n) + ((i + l.length : Nat) : ℝ) * (u * M + t)) := by
  induction l generalizing i s with
  | nil =>
    refine ⟨s, rfl, by simpa using hs1, by simpa using hs2, fun h _ => by simpa using h, fun h => ?_⟩
    rcases h with h | ⟨x, hx, -⟩
    · simpa using h
    · cases hx
  | cons x l ih =>
    obtain ⟨x1, x2⟩ := x
    have hx := hl _ List.mem_cons_self
    obtain ⟨v, k, h1, h2, h3, h4, h5⟩ := C148_kappa hr hu ht hn hsmall hx
    obtain ⟨k', hk1, hk2, hk3, -⟩ := C40_range_partial (K := ℝ) x1 x2 n hx.fst hx.snd hx.notFull
    rw [h2, Fl.fin.injEq] at hk1
    subst hk1
    have hn1R : (1 : ℝ) ≤ n := by exact_mod_cast hn1
    have hnh : 0 ≤ (n : ℝ) * (u + t) := by positivity
    have h3' := abs_le.1 h3
    have hv1 : -2 ≤ v := by linarith
    have hbeta : 0 < 1 / (8 * (n : ℝ)) := by positivity
    have hv2 : v ≤ 1 := by
      by_cases hag : Agree (x1, x2)
      · exact (h4 hag).le
      · linarith [h5 hag]
    have hlen : i + 1 + l.length ≤ M := by simp only [List.length_cons] at hi; omega
    have hint : ∀ m : Int, |m| ≤ 2 ^ 53 → rnd m = m := hr.exact
    have hup : rnd (s + v) ≤ ((i + 1 : Nat) : ℝ) := by
      have e : rnd ((i + 1 : Nat) : ℝ) = ((i + 1 : Nat) : ℝ) := hr.nat (by
        have : (2 : Nat) ^ 26 ≤ 2 ^ 53 := by norm_num
        omega)
      rw [← e]
      refine hr.mono ?_
      push_cast
      linarith
    have hlo : -(2 * ((i + 1 : Nat) : ℝ)) ≤ rnd (s + v) := by
      have e : rnd ((-(2 * ((i + 1 : Nat) : Int)) : Int) : ℝ) = ((-(2 * ((i + 1 : Nat) : Int)) : Int) : ℝ) := hr.exact _ (by
        rw [abs_neg, abs_of_nonneg (by positivity)]
        have : (2 : Int) ^ 26 * 2 ≤ 2 ^ 53 := by norm_num
        have : (M : Int) ≤ 2 ^ 26 := by exact_mod_cast hM
        push_cast
        omega)
      have e2 : ((-(2 * ((i + 1 : Nat) : Int)) : Int) : ℝ) = -(2 * ((i + 1 : Nat) : ℝ)) := by push_cast; ring
      rw [← e2, ← e]
      refine hr.mono ?_
      push_cast
      linarith
    have hiM : ((i + 1 : Nat) : ℝ) ≤ M := by
      have : i + 1 ≤ M := by omega
      exact_mod_cast this
    have hM' : (M : ℝ) ≤ 2 ^ 26 := by exact_mod_cast hM
    have hstep : roundFl rnd (Fl.add (.fin s) (cohenKappaFl rnd x1 x2 n)) = .fin (rnd (s + v)) := by
      rw [h1]
      refine ovf_fin ?_
      have : |rnd (s + v)| ≤ 2 ^ 27 := by
        rw [abs_le]
        constructor <;> linarith
      exact lt_of_le_of_lt this (pow_lt_pow_right₀ (by norm_num) (by norm_num))
    obtain ⟨s', r1, r2, r3, r4, r5⟩ := ih (fun y hy => hl y (List.mem_cons_of_mem _ hy)) (i + 1) (rnd (s + v)) hlo hup hlen
    have elen : i + ((x1, x2) :: l).length = i + 1 + l.length := by simp only [List.length_cons]; omega
    rw [List.foldl_cons, hstep, elen]
    refine ⟨s', r1, r2, r3, fun hsi hag => r4 ?_ (fun y hy => hag y (List.mem_cons_of_mem _ hy)), fun hbad => r5 ?_⟩
    · rw [hsi, h4 (hag _ List.mem_cons_self)]
      have := hr.nat (k := i + 1) (by
        have : (2 : Nat) ^ 26 ≤ 2 ^ 53 := by norm_num
        omega)
      push_cast at this ⊢
      exact this
    · have heps : 0 ≤ u * M + t := by positivity
      have hieps : 0 ≤ (i : ℝ) * (u * M + t) := by positivity
      by_cases hl' : ∃ y ∈ l, ¬ Agree y
      · exact Or.inr hl'
      left
      have hX : s + v ≤ ((i + 1 : Nat) : ℝ) - 1 / (8 * n) + i * (u * M + t) := by
        push_cast
        rcases hbad with h | ⟨y, hy, hny⟩
        · linarith
        · rcases List.mem_cons.1 hy with rfl | hy
          · linarith [h5 hny]
          · exact absurd ⟨y, hy, hny⟩ hl'
      have hb1 : 1 / (8 * (n : ℝ)) ≤ 1 := by
        rw [div_le_one (by positivity)]
        linarith
      rcases le_or_gt (s + v) 0 with hneg | hpos
      · have := hr.nonpos hneg
        have hi0 : (0 : ℝ) ≤ i := Nat.cast_nonneg i
        have : 0 ≤ ((i + 1 : Nat) : ℝ) * (u * M + t) := by positivity
        push_cast at this ⊢
        linarith
      · have e := abs_le.1 (hr.rel (s + v))
        have hsv : |s + v| ≤ M := by
          rw [abs_of_pos hpos]
          push_cast at hiM
          linarith
        have : u * |s + v| ≤ u * M := mul_le_mul_of_nonneg_left hsv hu
        push_cast at hX ⊢
        linarith

/-- The mean over the samples is a number; it is exactly 1 when the selections of every sample agree and less than 1 otherwise. -/
theorem C148_mean {rnd : ℝ → ℝ} {u t : ℝ} (hr : RoundOff rnd u t) (hu : 0 ≤ u) (ht : 0 ≤ t) {n : Nat} (hn1 : 1 ≤ n) (hn : n ≤ 2 ^ 26)
    (samples : List (List Int × List Int)) (hne : samples ≠ []) (hM : samples.length ≤ 2 ^ 26)
    (hsmall : 64 * n * samples.length ^ 2 * (u + t) ≤ 1) (hs : ∀ x ∈ samples, Sample n x) :
    ∃ x : ℝ, getCohensKappaFl rnd n samples = .fin x ∧ ((∀ s ∈ samples, Agree s) → x = 1) ∧ ((∃ s ∈ samples, ¬ Agree s) → x < 1) := by
  have hN1 : 1 ≤ samples.length := List.length_pos_iff.2 hne
  have hN1R : (1 : ℝ) ≤ samples.length := by exact_mod_cast hN1
  have hn1R : (1 : ℝ) ≤ n := by exact_mod_cast hn1
  have hh : 0 ≤ u + t := by linarith
  have hNN : (1 : ℝ) ≤ (samples.length : ℝ) ^ 2 := one_le_pow₀ hN1R
  have hsmall1 : 64 * n * (u + t) ≤ 1 := by
    have h0 : 0 ≤ 64 * (n : ℝ) * (u + t) := by positivity
    have : 64 * (n : ℝ) * (u + t) * 1 ≤ 64 * n * (u + t) * (samples.length : ℝ) ^ 2 := mul_le_mul_of_nonneg_left hNN h0
    linarith
  obtain ⟨s', h1, h2, h3, h4, h5⟩ := kappa_fold hr hu ht hn1 hn hsmall1 hM samples hs 0 0 (by simp) (by simp) (by simp)
  rw [Nat.zero_add] at h2 h3 h4 h5
  have hNpos : (0 : ℝ) < samples.length := by linarith
  have hcast : natFl rnd samples.length = .fin (samples.length : ℝ) := by
    unfold natFl
    rw [hr.nat (hM.trans (by norm_num))]
  have hq1 : -2 ≤ s' / samples.length := by rw [le_div_iff₀ hNpos]; linarith
  have hq2 : s' / samples.length ≤ 1 := by rw [div_le_one hNpos]; exact h3
  have hm2 : rnd (-2) = -2 := by
    have := hr.exact (-2) (by norm_num)
    simpa using this
  have hr1 : -2 ≤ rnd (s' / samples.length) := by rw [← hm2]; exact hr.mono hq1
  have hr2 := hr.le_one hq2
  refine ⟨rnd (s' / samples.length), ?_, fun hag => ?_, fun hbad => ?_⟩
  · unfold getCohensKappaFl
    rw [h1, hcast]
    exact quot_fin hNpos.ne' (by rw [abs_le]; constructor <;> linarith)
  · rw [h4 (by simp) hag, div_self hNpos.ne', hr.one]
  · have h6 := h5 (Or.inr hbad)
    have e := abs_le.1 (hr.err hu (x := s' / samples.length) (c := 2) (by rw [abs_le]; constructor <;> linarith))
    have hq : s' / samples.length ≤ 1 - 1 / (8 * n) / samples.length + (u * samples.length + t) := by
      rw [div_le_iff₀ hNpos]
      have : (1 - 1 / (8 * (n : ℝ)) / samples.length + (u * samples.length + t)) * samples.length =
          samples.length - 1 / (8 * n) + samples.length * (u * samples.length + t) := by
        field_simp
      linarith
    have hgap : 8 * samples.length * (u + t) ≤ 1 / (8 * (n : ℝ)) / samples.length := by
      rw [div_div, le_div_iff₀ (by positivity)]
      nlinarith
    have a1 : u * samples.length + t ≤ samples.length * (u + t) := by nlinarith
    have a2 : u + t ≤ samples.length * (u + t) := by nlinarith
    rcases eq_or_lt_of_le hh with h0 | h0
    · have : 0 < 1 / (8 * (n : ℝ)) / samples.length := by positivity
      have hu0 : u = 0 := by linarith
      have ht0 : t = 0 := by linarith
      rw [hu0, ht0] at hq e
      linarith
    · have : 0 < samples.length * (u + t) := by positivity
      linarith

/-- If a target agrees in all samples, the target that `CalculateCohenSequence` chooses does so as well: rounding never makes a less
stable one look better. -/
theorem C148_chosen {rnd : ℝ → ℝ} {u t : ℝ} (hr : RoundOff rnd u t) (hu : 0 ≤ u) (ht : 0 ≤ t) {n N : Nat} (hn1 : 1 ≤ n)
    (hn : n ≤ 2 ^ 26) (hN : 1 ≤ N) (hM : N ≤ 2 ^ 26) (hsmall : 64 * n * N ^ 2 * (u + t) ≤ 1) (numTargets : Nat)
    (samples : Nat → List (List Int × List Int)) (hs : ∀ k < numTargets, (samples k).length = N ∧ ∀ x ∈ samples k, Sample n x)
    (s : Pool (CohenMain ℝ) Nat (Nat × Fl ℝ)) (h : CohenReach numTargets s) (hd : CohenDone numTargets s)
    (hval : ∀ p ∈ s.got, p.2.2 = getCohensKappaFl rnd n (samples p.2.1)) (k : Nat) (hk : k < numTargets)
    (hstable : ∀ x ∈ samples k, Agree x) :
    ∃ j < numTargets, s.main.bestHyper = some j ∧ ∀ x ∈ samples j, Agree x := by
  have hperm := (C41_each_once numTargets s h hd).2
  have hmean : ∀ j < numTargets, ∃ x : ℝ, getCohensKappaFl rnd n (samples j) = .fin x ∧ ((∀ s ∈ samples j, Agree s) → x = 1) ∧
      ((∃ s ∈ samples j, ¬ Agree s) → x < 1) := by
    intro j hj
    obtain ⟨h1, h2⟩ := hs j hj
    refine C148_mean hr hu ht hn1 hn (samples j) ?_ (by omega) (by rw [h1]; exact hsmall) h2
    rintro h0
    rw [h0] at h1
    simp at h1
    omega
  have hlt : ∀ p ∈ s.got, p.2.1 < numTargets := fun p hp =>
    List.mem_range.1 (hperm.mem_iff.1 (List.mem_map_of_mem (f := fun p => p.2.1) hp))
  obtain ⟨q, hq, hqk⟩ := List.mem_map.1 (hperm.mem_iff.2 (List.mem_range.2 hk))
  obtain ⟨xk, e1, e2, -⟩ := hmean k hk
  have hxk := e2 hstable
  have hqv : q.2.2 = .fin 1 := by rw [hval q hq, hqk, e1, hxk]
  obtain ⟨hb1, hb2⟩ := C41_best numTargets s h
  have h01 : Fl.fin (0 : ℝ) < .fin 1 := fl_lt_fin.2 one_pos
  cases hbest : s.main.bestHyper with
  | none =>
    exfalso
    exact hb2.1 hbest q hq (by rw [hqv]; exact h01)
  | some j =>
    obtain ⟨p, hp, hpj, -, hmax⟩ := hb1 j hbest
    have hj : j < numTargets := by rw [← hpj]; exact hlt p hp
    refine ⟨j, hj, rfl, ?_⟩
    by_contra hbad
    push Not at hbad
    obtain ⟨xj, f1, -, f3⟩ := hmean j hj
    have hxj := f3 hbad
    refine hmax q hq ?_
    rw [hqv, hval p hp, hpj, f1]
    exact fl_lt_fin.2 hxj

/-! ### binary64 -/

theorem roundOff64 : RoundOff rnd64 (1 / 2 ^ 53) (1 / 2 ^ 110) where
  mono := rnd64_mono
  exact := fun m hm => rnd64_int hm
  rel := fun x => by
    have h1 := rnd64_rel x
    have h2 : (2 : ℝ) ^ (-1075 : Int) ≤ 2 ^ (-110 : Int) := zpow_le_zpow_right₀ (by norm_num) (by norm_num)
    have h3 : (2 : ℝ) ^ (-110 : Int) = 1 / 2 ^ 110 := by
      rw [zpow_neg, one_div]
      congr 1
    rw [h3] at h2
    clear h3
    generalize (2 : ℝ) ^ (-1075 : Int) = a at *
    have h4 : |x| / 2 ^ 53 = 1 / 2 ^ 53 * |x| := by ring
    rw [h4] at h1
    exact h1.trans (by linarith)

/-- The hypotheses hold for 1000 features and 1000 samples in binary64. -/
example : RoundOff rnd64 (1 / 2 ^ 53) (1 / 2 ^ 110) ∧ 64 * (1000 : ℝ) * 1000 ^ 2 * (1 / 2 ^ 53 + 1 / 2 ^ 110) ≤ 1 :=
  ⟨roundOff64, by norm_num⟩

/-- Two samples of selections of three features; in the second one they differ. -/
example : Sample 3 ([1, 2], [2, 1]) ∧ Agree ([1, 2], [2, 1]) ∧ Sample 3 ([1, 2], [1]) ∧ ¬ Agree ([1, 2], [1]) := by
  refine ⟨⟨⟨by decide, by decide⟩, ⟨by decide, by decide⟩, by decide⟩, ?_, ⟨⟨by decide, by decide⟩, ⟨by decide, by decide⟩, by decide⟩, ?_⟩
  · intro v
    simp [or_comm]
  · intro h
    have := (h 2).1 (by simp)
    simp at this

end GoSelect
