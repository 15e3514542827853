import Verif.Proofs.NormRounded
import Verif.Proofs.RoundedFit

/-!
C139: normalisation is accurate in floating point arithmetic.

`rnd` rounds with relative error `u`; double precision without overflow and underflow is `rnd53` with `u = 2 ^ (-53)`.
-/

namespace GoSelect

open Spec

/-! ### Specification -/

/-- How large the numbers are compared to their standard deviation. -/
noncomputable def Spec.offset (v : List ℝ) : ℝ := (v.map (fun x => |x|)).sum / v.length / Real.sqrt (variance v)

/-- `w` are the numbers `v` normalised, with error `η`. -/
structure Spec.NormalizedUpTo (η : ℝ) (v w : List ℝ) : Prop where
  len : w.length = v.length
  size : |(w.map (fun x => x ^ 2)).sum / (v.length - 1 : ℝ) - 1| ≤ 2 * η
  mean : |Spec.mean w| ≤ 2 * η * (1 + offset v)
  each : ∀ (i : Nat) (x z : ℝ), v[i]? = some x → w[i]? = some z →
    |z - (x - Spec.mean v) / Real.sqrt (variance v)| ≤
      4 * η * (1 + offset v) * (1 + |(x - Spec.mean v) / Real.sqrt (variance v)|)

/-! ### Sums -/

theorem abs_sum_le_list (v : List ℝ) : |v.sum| ≤ (v.map (fun x => |x|)).sum := by
  induction v with
  | nil => simp
  | cons a l ih =>
    rw [List.sum_cons, List.map_cons, List.sum_cons]
    exact (abs_add_le _ _).trans (by linarith)

theorem sumRnd_err {rnd : ℝ → ℝ} {u : ℝ} (hu : 0 ≤ u) (h : RelativeError rnd u) (v : List ℝ) :
    |v.foldl (fun mu x => rnd (mu + x)) 0 - v.sum| ≤ ((1 + u) ^ v.length - 1) * (v.map (fun x => |x|)).sum := by
  induction v using List.reverseRecOn with
  | nil => simp
  | append_singleton l a ih =>
    rw [List.foldl_append, List.foldl_cons, List.foldl_nil, List.sum_append, List.sum_singleton, List.map_append,
      List.sum_append, List.map_singleton, List.sum_singleton, List.length_append, List.length_singleton]
    set s := l.foldl (fun mu x => rnd (mu + x)) 0
    set S := l.sum
    set A := (l.map (fun x => |x|)).sum
    have hSA : |S| ≤ A := abs_sum_le_list l
    have h1 := h (s + a)
    have h2 : |s + a| ≤ |s - S| + (A + |a|) := by
      calc |s + a| = |(s - S) + (S + a)| := by ring_nf
        _ ≤ |s - S| + |S + a| := abs_add_le _ _
        _ ≤ |s - S| + (|S| + |a|) := by gcongr; exact abs_add_le _ _
        _ ≤ _ := by gcongr
    have h3 : |rnd (s + a) - (S + a)| ≤ |rnd (s + a) - (s + a)| + |s - S| := by
      calc |rnd (s + a) - (S + a)| = |(rnd (s + a) - (s + a)) + (s - S)| := by ring_nf
        _ ≤ _ := abs_add_le _ _
    have hp : 1 ≤ (1 + u) ^ l.length := one_le_pow₀ (by linarith)
    have hA : 0 ≤ A := (abs_nonneg _).trans hSA
    have ha := abs_nonneg a
    have h4 : u * |s + a| ≤ u * (((1 + u) ^ l.length - 1) * A + (A + |a|)) :=
      mul_le_mul_of_nonneg_left (h2.trans (by linarith)) hu
    have e1 : ((1 + u) ^ (l.length + 1) - 1) * (A + |a|) =
        ((1 + u) ^ l.length - 1) * A + u * (((1 + u) ^ l.length - 1) * A + (A + |a|)) +
          ((1 + u) ^ l.length - 1) * (1 + u) * |a| := by ring
    rw [e1]
    have : 0 ≤ ((1 + u) ^ l.length - 1) * (1 + u) * |a| :=
      mul_nonneg (mul_nonneg (by linarith) (by linarith)) ha
    linarith

theorem squaresRnd_err {rnd : ℝ → ℝ} {u : ℝ} (hu : 0 ≤ u) (hu1 : u ≤ 1) (h : RelativeError rnd u) (mu : ℝ) (v : List ℝ) :
    (1 - u) ^ (v.length + 3) * (v.map (fun x => (x - mu) ^ 2)).sum ≤
        v.foldl (fun s x => rnd (s + rnd (rnd (x - mu) * rnd (x - mu)))) 0 ∧
      v.foldl (fun s x => rnd (s + rnd (rnd (x - mu) * rnd (x - mu)))) 0 ≤
        (1 + u) ^ (v.length + 3) * (v.map (fun x => (x - mu) ^ 2)).sum := by
  induction v using List.reverseRecOn with
  | nil => simp
  | append_singleton l a ih =>
    rw [List.foldl_append, List.foldl_cons, List.foldl_nil, List.map_append, List.sum_append, List.map_singleton,
      List.sum_singleton, List.length_append, List.length_singleton]
    set s := l.foldl (fun s x => rnd (s + rnd (rnd (x - mu) * rnd (x - mu)))) 0
    set S := (l.map (fun x => (x - mu) ^ 2)).sum
    obtain ⟨i1, i2⟩ := ih
    have hS : 0 ≤ S := List.sum_nonneg (by
      intro x hx
      obtain ⟨y, -, rfl⟩ := List.mem_map.1 hx
      exact sq_nonneg _)
    have hs : 0 ≤ s := le_trans (mul_nonneg (pow_nonneg (by linarith) _) hS) i1
    set d := a - mu
    have hd : 0 ≤ d ^ 2 := sq_nonneg d
    have r1 : (1 - u) ^ 2 * d ^ 2 ≤ rnd d * rnd d ∧ rnd d * rnd d ≤ (1 + u) ^ 2 * d ^ 2 := by
      have hr := h d
      have a1 : (1 - u) * |d| ≤ |rnd d| := by
        have : |d| ≤ |rnd d| + |rnd d - d| := by
          calc |d| = |rnd d - (rnd d - d)| := by ring_nf
            _ ≤ _ := abs_sub _ _
        linarith
      have a2 := rel_abs h d
      rw [← abs_mul_abs_self (rnd d), ← sq_abs d]
      have hd0 := abs_nonneg d
      have hd1 : 0 ≤ (1 - u) * |d| := mul_nonneg (by linarith) hd0
      constructor
      · calc (1 - u) ^ 2 * |d| ^ 2 = ((1 - u) * |d|) * ((1 - u) * |d|) := by ring
          _ ≤ _ := mul_le_mul a1 a1 hd1 (abs_nonneg _)
      · calc |rnd d| * |rnd d| ≤ ((1 + u) * |d|) * ((1 + u) * |d|) :=
            mul_le_mul a2 a2 (abs_nonneg _) (by positivity)
          _ = _ := by ring
    obtain ⟨p1, p2⟩ := rel_nonneg h (mul_self_nonneg (rnd d))
    set p := rnd (rnd d * rnd d)
    have q1 : (1 - u) ^ 3 * d ^ 2 ≤ p := by
      calc (1 - u) ^ 3 * d ^ 2 = (1 - u) * ((1 - u) ^ 2 * d ^ 2) := by ring
        _ ≤ (1 - u) * (rnd d * rnd d) := mul_le_mul_of_nonneg_left r1.1 (by linarith)
        _ ≤ p := p1
    have q2 : p ≤ (1 + u) ^ 3 * d ^ 2 := by
      calc p ≤ (1 + u) * (rnd d * rnd d) := p2
        _ ≤ (1 + u) * ((1 + u) ^ 2 * d ^ 2) := mul_le_mul_of_nonneg_left r1.2 (by linarith)
        _ = _ := by ring
    have hp : 0 ≤ p := le_trans (mul_nonneg (pow_nonneg (by linarith) _) hd) q1
    obtain ⟨t1, t2⟩ := rel_nonneg h (add_nonneg hs hp)
    constructor
    · refine le_trans ?_ t1
      have e : (1 - u) ^ (l.length + 1 + 3) * (S + d ^ 2) =
          (1 - u) * ((1 - u) ^ (l.length + 3) * S + (1 - u) ^ l.length * ((1 - u) ^ 3 * d ^ 2)) := by ring
      rw [e]
      refine mul_le_mul_of_nonneg_left (add_le_add i1 ?_) (by linarith)
      refine le_trans ?_ q1
      exact mul_le_of_le_one_left (mul_nonneg (pow_nonneg (by linarith) _) hd)
        (pow_le_one₀ (by linarith) (by linarith))
    · refine le_trans t2 ?_
      have e : (1 + u) ^ (l.length + 1 + 3) * (S + d ^ 2) =
          (1 + u) * ((1 + u) ^ (l.length + 3) * S + (1 + u) ^ l.length * ((1 + u) ^ 3 * d ^ 2)) := by ring
      rw [e]
      refine mul_le_mul_of_nonneg_left (add_le_add i2 ?_) (by linarith)
      refine le_trans q2 ?_
      exact le_mul_of_one_le_left (by positivity) (one_le_pow₀ (by linarith))

/-! ### Powers -/

/-- `(1 - u) ^ k` and `(1 + u) ^ k` for small `u`. -/
theorem pow_bounds {u η : ℝ} (hu : 0 ≤ u) (k : Nat) (hk : k * u ≤ η) (hη : η ≤ 1 / 100) :
    1 - η ≤ (1 - u) ^ k ∧ (1 + u) ^ k * (1 - η) ≤ 1 := by
  have hb : ∀ j : Nat, j ≤ k → 1 - j * u ≤ (1 - u) ^ j ∧ (1 + u) ^ j * (1 - j * u) ≤ 1 := by
    intro j
    induction j with
    | zero => intro _; simp
    | succ j ih =>
      intro hj
      obtain ⟨h1, h2⟩ := ih (by omega)
      have hj1 : ((j + 1 : Nat) : ℝ) * u ≤ η :=
        le_trans (mul_le_mul_of_nonneg_right (by exact_mod_cast hj) hu) hk
      push_cast at hj1 ⊢
      have hj0 : (0 : ℝ) ≤ j * u := by positivity
      have hu1 : u ≤ 1 := by linarith
      constructor
      · rw [pow_succ]
        nlinarith [mul_le_mul_of_nonneg_right h1 (by linarith : (0 : ℝ) ≤ 1 - u)]
      · rw [pow_succ]
        have hp : 0 ≤ (1 + u) ^ j := by positivity
        have : (1 + u) * (1 - (j + 1) * u) ≤ 1 - j * u := by nlinarith
        calc (1 + u) ^ j * (1 + u) * (1 - (j + 1) * u) = (1 + u) ^ j * ((1 + u) * (1 - (j + 1) * u)) := by ring
          _ ≤ (1 + u) ^ j * (1 - j * u) := mul_le_mul_of_nonneg_left this hp
          _ ≤ 1 := h2
  obtain ⟨h1, h2⟩ := hb k le_rfl
  refine ⟨by linarith, le_trans (mul_le_mul_of_nonneg_left (by linarith) (by positivity)) h2⟩

/-! ### Mean and standard deviation -/

/-- The computed mean is off by at most `(1 + u) ^ (n + 1) - 1`, relative to the mean of the absolute values. -/
theorem C139_mean (rnd : ℝ → ℝ) (u : ℝ) (hu : 0 ≤ u) (h : RelativeError rnd u) (v : List ℝ)
    (hn : rnd v.length = v.length) (hv : v ≠ []) :
    |meanRnd rnd v - mean v| ≤ ((1 + u) ^ (v.length + 1) - 1) * ((v.map (fun x => |x|)).sum / v.length) := by
  have hn0 : (0 : ℝ) < v.length := by exact_mod_cast List.length_pos_iff.2 hv
  have h1 := sumRnd_err hu h v
  unfold meanRnd mean
  rw [hn]
  set s := v.foldl (fun mu x => rnd (mu + x)) 0
  set A := (v.map (fun x => |x|)).sum
  have hSA : |v.sum| ≤ A := abs_sum_le_list v
  have hA : 0 ≤ A := (abs_nonneg _).trans hSA
  have h2 := h (s / v.length)
  have h3 : |s| ≤ (1 + u) ^ v.length * A := by
    have : |s| ≤ |s - v.sum| + |v.sum| := by
      calc |s| = |(s - v.sum) + v.sum| := by ring_nf
        _ ≤ _ := abs_add_le _ _
    linarith
  have h4 : |rnd (s / v.length) - v.sum / v.length| ≤ |rnd (s / v.length) - s / v.length| + |s - v.sum| / v.length := by
    calc |rnd (s / v.length) - v.sum / v.length| = |(rnd (s / v.length) - s / v.length) + (s - v.sum) / v.length| := by
          ring_nf
      _ ≤ |rnd (s / v.length) - s / v.length| + |(s - v.sum) / v.length| := abs_add_le _ _
      _ = _ := by rw [abs_div, abs_of_pos hn0]
  rw [abs_div, abs_of_pos hn0] at h2
  refine h4.trans ((add_le_add h2 le_rfl).trans ?_)
  have e : ((1 + u) ^ (v.length + 1) - 1) * (A / v.length) =
      u * ((1 + u) ^ v.length * A / v.length) + ((1 + u) ^ v.length - 1) * A / v.length := by
    field_simp
    ring
  rw [e]
  gcongr

theorem squares_shift (v : List ℝ) (hv : v ≠ []) (m : ℝ) :
    (v.map (fun x => (x - m) ^ 2)).sum = (v.map (fun x => (x - mean v) ^ 2)).sum + v.length * (mean v - m) ^ 2 := by
  have hn0 : (v.length : ℝ) ≠ 0 := by exact_mod_cast (List.length_pos_iff.2 hv).ne'
  have key : ∀ (l : List ℝ) (a : ℝ), (l.map (fun x => (x - m) ^ 2)).sum =
      (l.map (fun x => (x - a) ^ 2)).sum + 2 * (a - m) * (l.sum - l.length * a) + l.length * (a - m) ^ 2 := by
    intro l a
    induction l with
    | nil => simp
    | cons x l ih =>
      simp only [List.map_cons, List.sum_cons, List.length_cons, ih]
      push_cast
      ring
  rw [key v (mean v)]
  have : v.sum - v.length * mean v = 0 := by
    unfold mean
    field_simp
    ring
  rw [this]
  ring

/-- The computed standard deviation against the root mean square distance from the computed mean. -/
theorem stdRnd_bounds {rnd : ℝ → ℝ} {u : ℝ} (hu : 0 ≤ u) (hu1 : u ≤ 1) (h : RelativeError rnd u) (v : List ℝ)
    (hv : 2 ≤ v.length) (hn : rnd (v.length - 1 : ℝ) = v.length - 1) :
    (1 - u) ^ (v.length + 6) * ((v.map (fun x => (x - meanRnd rnd v) ^ 2)).sum / (v.length - 1 : ℝ)) ≤ stdRnd rnd v ^ 2 ∧
      stdRnd rnd v ^ 2 ≤ (1 + u) ^ (v.length + 6) * ((v.map (fun x => (x - meanRnd rnd v) ^ 2)).sum / (v.length - 1 : ℝ)) ∧
      0 ≤ stdRnd rnd v := by
  have hn1 : (0 : ℝ) < v.length - 1 := by
    have : (2 : ℝ) ≤ v.length := by exact_mod_cast hv
    linarith
  obtain ⟨h1, h2⟩ := squaresRnd_err hu hu1 h (meanRnd rnd v) v
  unfold stdRnd
  rw [if_neg (by omega)]
  simp only
  rw [hn]
  set s := v.foldl (fun s x => rnd (s + rnd (rnd (x - meanRnd rnd v) * rnd (x - meanRnd rnd v)))) 0
  set S := (v.map (fun x => (x - meanRnd rnd v) ^ 2)).sum
  have hS : 0 ≤ S := List.sum_nonneg (by
    intro x hx
    obtain ⟨y, -, rfl⟩ := List.mem_map.1 hx
    exact sq_nonneg _)
  have hs : 0 ≤ s := le_trans (mul_nonneg (pow_nonneg (by linarith) _) hS) h1
  obtain ⟨q1, q2⟩ := rel_nonneg h (div_nonneg hs hn1.le)
  set q := rnd (s / (v.length - 1))
  have hq : 0 ≤ q := le_trans (mul_nonneg (by linarith) (div_nonneg hs hn1.le)) q1
  obtain ⟨r1, r2⟩ := rel_nonneg h (Real.sqrt_nonneg q)
  set r := rnd (Real.sqrt q)
  have hr : 0 ≤ r := le_trans (mul_nonneg (by linarith) (Real.sqrt_nonneg _)) r1
  have hsq := Real.sq_sqrt hq
  have h0 : (0 : ℝ) ≤ 1 - u := by linarith
  refine ⟨?_, ?_, hr⟩
  · calc (1 - u) ^ (v.length + 6) * (S / (v.length - 1)) =
          (1 - u) ^ 2 * ((1 - u) * ((1 - u) ^ (v.length + 3) * S / (v.length - 1))) := by ring
      _ ≤ (1 - u) ^ 2 * ((1 - u) * (s / (v.length - 1))) := by gcongr
      _ ≤ (1 - u) ^ 2 * q := by gcongr
      _ = ((1 - u) * Real.sqrt q) ^ 2 := by rw [mul_pow, hsq]
      _ ≤ r ^ 2 := pow_le_pow_left₀ (mul_nonneg h0 (Real.sqrt_nonneg _)) r1 2
  · calc r ^ 2 ≤ ((1 + u) * Real.sqrt q) ^ 2 := pow_le_pow_left₀ hr r2 2
      _ = (1 + u) ^ 2 * q := by rw [mul_pow, hsq]
      _ ≤ (1 + u) ^ 2 * ((1 + u) * (s / (v.length - 1))) := by gcongr
      _ ≤ (1 + u) ^ 2 * ((1 + u) * ((1 + u) ^ (v.length + 3) * S / (v.length - 1))) := by gcongr
      _ = _ := by ring

theorem sum_map_le {v : List ℝ} {f g : ℝ → ℝ} (h : ∀ x ∈ v, f x ≤ g x) : (v.map f).sum ≤ (v.map g).sum := by
  induction v with
  | nil => simp
  | cons a l ih =>
    rw [List.map_cons, List.sum_cons, List.map_cons, List.sum_cons]
    exact add_le_add (h a (by simp)) (ih fun x hx => h x (by simp [hx]))

theorem sum_map_mul (v : List ℝ) (c : ℝ) (f : ℝ → ℝ) : (v.map (fun x => c * f x)).sum = c * (v.map f).sum := by
  induction v with
  | nil => simp
  | cons a l ih => simp only [List.map_cons, List.sum_cons, ih]; ring

theorem sum_map_add (v : List ℝ) (f g : ℝ → ℝ) : (v.map (fun x => f x + g x)).sum = (v.map f).sum + (v.map g).sum := by
  induction v with
  | nil => simp
  | cons a l ih => simp only [List.map_cons, List.sum_cons, ih]; ring

theorem sum_map_const (v : List ℝ) (c : ℝ) : (v.map (fun _ => c)).sum = v.length * c := by
  induction v with
  | nil => simp
  | cons a l ih => simp only [List.map_cons, List.sum_cons, List.length_cons, ih]; push_cast; ring

theorem sum_map_shift (v : List ℝ) (m : ℝ) : (v.map (fun x => x - m)).sum = v.sum - v.length * m := by
  induction v with
  | nil => simp
  | cons a l ih => simp only [List.map_cons, List.sum_cons, List.length_cons, ih]; push_cast; ring

/-- What the computed mean and standard deviation satisfy, in terms of the relative error `η = (n + 10) u`. -/
theorem std_facts {rnd : ℝ → ℝ} {u : ℝ} (hu : 0 ≤ u) (h : RelativeError rnd u) (v : List ℝ) (hv : 2 ≤ v.length)
    (hn : ∀ k : Nat, k ≤ v.length → rnd k = k) (hη : (v.length + 10) * u ≤ 1 / 100) (hpos : 0 < variance v) :
    let σ := Real.sqrt (variance v)
    let P := (v.map (fun x => (x - meanRnd rnd v) ^ 2)).sum / (v.length - 1 : ℝ)
    0 < stdRnd rnd v ∧ |mean v - meanRnd rnd v| ≤ 102 / 100 * ((v.length + 10) * u) * (offset v * σ) ∧ 0 ≤ offset v ∧
      (1 - (v.length + 10) * u) * σ ≤ stdRnd rnd v ∧
      (1 - (v.length + 10) * u) * stdRnd rnd v ≤ σ + 2 * |mean v - meanRnd rnd v| ∧
      (1 - u) ^ (v.length + 6) * P ≤ stdRnd rnd v ^ 2 ∧ stdRnd rnd v ^ 2 ≤ (1 + u) ^ (v.length + 6) * P := by
  intro σ P
  have hne : v ≠ [] := by rintro rfl; simp at hv
  have hN : (2 : ℝ) ≤ v.length := by exact_mod_cast hv
  set N : ℝ := ((v.length : Nat) : ℝ) with hNd
  set η := (N + 10) * u with hηd
  have hη0 : 0 ≤ η := by positivity
  have hu1 : u ≤ 1 := by nlinarith
  have hn1 : rnd (N - 1) = N - 1 := by
    have := hn (v.length - 1) (by omega)
    rwa [Nat.cast_sub (by omega), Nat.cast_one] at this
  obtain ⟨s1, s2, s3⟩ := stdRnd_bounds hu hu1 h v hv hn1
  have hσ : 0 < σ := Real.sqrt_pos.2 hpos
  have hσ2 : σ ^ 2 = variance v := Real.sq_sqrt hpos.le
  obtain ⟨k1, k2⟩ := pow_bounds hu (v.length + 6) (by push_cast; rw [hηd]; nlinarith) hη
  obtain ⟨-, m2⟩ := pow_bounds hu (v.length + 1) (by push_cast; rw [hηd]; nlinarith) hη
  -- the mean
  have hA : 0 ≤ (v.map (fun x => |x|)).sum / N := by
    refine div_nonneg ?_ (by linarith)
    exact (abs_nonneg _).trans (abs_sum_le_list v)
  have hoff : offset v * σ = (v.map (fun x => |x|)).sum / N := div_mul_cancel₀ _ hσ.ne'
  have ha := C139_mean rnd u hu h v (hn _ le_rfl) hne
  rw [abs_sub_comm] at ha
  set a := mean v - meanRnd rnd v with had
  have ha' : |a| ≤ 102 / 100 * η * (offset v * σ) := by
    rw [hoff]
    refine ha.trans (mul_le_mul_of_nonneg_right ?_ hA)
    nlinarith
  -- the distances
  have hP : P = σ ^ 2 + N / (N - 1) * a ^ 2 := by
    simp only [P]
    rw [squares_shift v hne (meanRnd rnd v), hσ2]
    unfold variance
    rw [← hNd, ← had]
    have : N - 1 ≠ 0 := by linarith
    field_simp
  have hfrac : 1 ≤ N / (N - 1) ∧ N / (N - 1) ≤ 2 := by
    constructor
    · rw [le_div_iff₀ (by linarith)]; linarith
    · rw [div_le_iff₀ (by linarith)]; linarith
  have ha2 : a ^ 2 = |a| ^ 2 := (sq_abs a).symm
  have ha0 := abs_nonneg a
  have hP1 : σ ^ 2 ≤ P := by
    rw [hP]
    have : 0 ≤ N / (N - 1) * a ^ 2 := mul_nonneg (by linarith) (sq_nonneg a)
    linarith
  have hP2 : P ≤ (σ + 2 * |a|) ^ 2 := by
    rw [hP, ha2]
    have : N / (N - 1) * |a| ^ 2 ≤ 2 * |a| ^ 2 := mul_le_mul_of_nonneg_right hfrac.2 (sq_nonneg _)
    nlinarith
  have hP0 : 0 < P := lt_of_lt_of_le (by positivity) hP1
  have l1 : ((1 - η) * σ) ^ 2 ≤ stdRnd rnd v ^ 2 := by
    calc ((1 - η) * σ) ^ 2 = (1 - η) * ((1 - η) * σ ^ 2) := by ring
      _ ≤ 1 * ((1 - η) * P) := by
          apply mul_le_mul (by linarith) _ (mul_nonneg (by linarith) (sq_nonneg _)) (by norm_num)
          exact mul_le_mul_of_nonneg_left hP1 (by linarith)
      _ ≤ (1 - u) ^ (v.length + 6) * P := by rw [one_mul]; exact mul_le_mul_of_nonneg_right k1 hP0.le
      _ ≤ _ := s1
  refine ⟨?_, ha', ?_, ?_, ?_, s1, s2⟩
  · have := abs_le_of_sq_le_sq' l1 s3
    have h9 : 0 < (1 - η) * σ := mul_pos (by linarith) hσ
    linarith [this.2]
  · have : 0 ≤ offset v * σ := hoff ▸ hA
    exact nonneg_of_mul_nonneg_left this hσ
  · exact (abs_le_of_sq_le_sq' l1 s3).2
  · have l3 : ((1 - η) * stdRnd rnd v) ^ 2 ≤ (σ + 2 * |a|) ^ 2 := by
      calc ((1 - η) * stdRnd rnd v) ^ 2 = (1 - η) * ((1 - η) * stdRnd rnd v ^ 2) := by ring
        _ ≤ 1 * ((1 - η) * stdRnd rnd v ^ 2) :=
            mul_le_mul_of_nonneg_right (by linarith) (mul_nonneg (by linarith) (sq_nonneg _))
        _ ≤ (1 - η) * ((1 + u) ^ (v.length + 6) * P) := by
            rw [one_mul]; exact mul_le_mul_of_nonneg_left s2 (by linarith)
        _ = ((1 + u) ^ (v.length + 6) * (1 - η)) * P := by ring
        _ ≤ 1 * P := mul_le_mul_of_nonneg_right k2 hP0.le
        _ ≤ _ := by rw [one_mul]; exact hP2
    exact (abs_le_of_sq_le_sq' l3 (by positivity)).2

/-! ### Normalised numbers -/

/-- The computed standard deviation is off by at most `2 η` of the exact one, and by twice the error of the mean; it is
never 0 if the numbers differ. -/
theorem C139_std (rnd : ℝ → ℝ) (u : ℝ) (hu : 0 ≤ u) (h : RelativeError rnd u) (v : List ℝ) (hv : 2 ≤ v.length)
    (hn : ∀ k : Nat, k ≤ v.length → rnd k = k) (hη : (v.length + 10) * u ≤ 1 / 100) (hpos : 0 < variance v) :
    0 < stdRnd rnd v ∧ |stdRnd rnd v - Real.sqrt (variance v)| ≤
      2 * ((v.length + 10) * u) * (1 + 2 * offset v) * Real.sqrt (variance v) := by
  obtain ⟨f1, f2, f3, f4, f5, -⟩ := std_facts hu h v hv hn hη hpos
  have hσ : 0 < Real.sqrt (variance v) := Real.sqrt_pos.2 hpos
  refine ⟨f1, ?_⟩
  set σ := Real.sqrt (variance v)
  set s := stdRnd rnd v
  set η := ((v.length : ℝ) + 10) * u
  have hη0 : 0 ≤ η := by positivity
  set κ := offset v
  have hκ : 0 ≤ η * (κ * σ) := by positivity
  have hησ : 0 ≤ η * σ := by positivity
  rw [abs_le]
  constructor
  · nlinarith
  · by_contra hc
    rw [not_le] at hc
    -- `s` exceeds the bound
    have h1 : (1 - η) * (σ + 2 * η * (1 + 2 * κ) * σ) < σ + 2 * (102 / 100 * η * (κ * σ)) := by
      have : (1 - η) * (σ + 2 * η * (1 + 2 * κ) * σ) < (1 - η) * s :=
        mul_lt_mul_of_pos_left (by linarith) (by linarith)
      linarith
    have h2 : (1 - η) * (σ + 2 * η * (1 + 2 * κ) * σ) =
        σ + η * σ + 4 * (η * (κ * σ)) - 2 * η * (η * σ) - 4 * η * (η * (κ * σ)) := by ring
    rw [h2] at h1
    have h3 : η * (η * σ) ≤ 1 / 100 * (η * σ) := mul_le_mul_of_nonneg_right hη hησ
    have h4 : η * (η * (κ * σ)) ≤ 1 / 100 * (η * (κ * σ)) := mul_le_mul_of_nonneg_right hη hκ
    linarith

/-- Rounded quotients of rounded differences. -/
theorem quotient_err {rnd : ℝ → ℝ} {u : ℝ} (hu : 0 ≤ u) (h : RelativeError rnd u) {s : ℝ} (hs : 0 < s) (d : ℝ) :
    |rnd (rnd d / s) - d / s| ≤ ((1 + u) ^ 2 - 1) * |d / s| := by
  have h1 := h d
  have h2 := h (rnd d / s)
  have h3 := rel_abs h d
  have e1 : |rnd d / s - d / s| ≤ u * |d / s| := by
    rw [← sub_div, abs_div, abs_div, abs_of_pos hs, ← mul_div_assoc]
    gcongr
  have e2 : |rnd d / s| ≤ (1 + u) * |d / s| := by
    rw [abs_div, abs_div, abs_of_pos hs, ← mul_div_assoc]
    gcongr
  calc |rnd (rnd d / s) - d / s| = |(rnd (rnd d / s) - rnd d / s) + (rnd d / s - d / s)| := by ring_nf
    _ ≤ |rnd (rnd d / s) - rnd d / s| + |rnd d / s - d / s| := abs_add_le _ _
    _ ≤ u * |rnd d / s| + u * |d / s| := add_le_add h2 e1
    _ ≤ u * ((1 + u) * |d / s|) + u * |d / s| := by gcongr
    _ = _ := by ring

/-- If `(1 - η) b ≤ c` then `b ≤ (1 + 102/100 η) c`. -/
theorem div_small {η b c : ℝ} (h0 : 0 ≤ η) (h1 : η ≤ 1 / 100) (hb : 0 ≤ b) (h : (1 - η) * b ≤ c) :
    b ≤ (1 + 102 / 100 * η) * c := by
  have h2 : (1 + 102 / 100 * η) * ((1 - η) * b) ≤ (1 + 102 / 100 * η) * c := mul_le_mul_of_nonneg_left h (by positivity)
  have h3 : (1 + 102 / 100 * η) * ((1 - η) * b) = b + (2 / 100 - 102 / 100 * η) * (η * b) := by ring
  have h4 : 0 ≤ (2 / 100 - 102 / 100 * η) * (η * b) := mul_nonneg (by linarith) (mul_nonneg h0 hb)
  linarith

/-- The reciprocal error of the standard deviation. -/
theorem ratio_low {η b s σ : ℝ} (h0 : 0 ≤ η) (hb : 0 ≤ b) (hs : 0 < s) (hσ : 0 < σ) (h : (1 - η) * s ≤ (1 + b) * σ) :
    1 - η - b ≤ σ / s := by
  rw [le_div_iff₀ hs]
  rcases le_or_gt (1 - η - b) 0 with h3 | h3
  · exact le_trans (mul_nonpos_of_nonpos_of_nonneg h3 hs.le) hσ.le
  · have h5 : (1 - b) * ((1 - η) * s) ≤ (1 - b) * ((1 + b) * σ) := mul_le_mul_of_nonneg_left h (by linarith)
    have h6 : (1 - b) * ((1 + b) * σ) = σ - b * b * σ := by ring
    have h7 : (1 - b) * ((1 - η) * s) = (1 - η - b) * s + b * η * s := by ring
    have h8 := mul_nonneg (mul_nonneg hb hb) hσ.le
    have h9 := mul_nonneg (mul_nonneg hb h0) hs.le
    linarith

/-- The rounded quotient is not smaller than the exact one by more than two roundings. -/
theorem quotient_low {rnd : ℝ → ℝ} {u : ℝ} (hu1 : u ≤ 1) (h : RelativeError rnd u) {s : ℝ} (hs : 0 < s)
    (d : ℝ) : (1 - u) ^ 2 * |d / s| ≤ |rnd (rnd d / s)| := by
  have low : ∀ x : ℝ, (1 - u) * |x| ≤ |rnd x| := by
    intro x
    have h3 := h x
    have : |x| ≤ |rnd x| + |rnd x - x| := by
      calc |x| = |rnd x - (rnd x - x)| := by ring_nf
        _ ≤ _ := abs_sub _ _
    linarith
  refine le_trans ?_ (low _)
  rw [abs_div, abs_div, abs_of_pos hs]
  calc (1 - u) ^ 2 * (|d| / s) = (1 - u) * ((1 - u) * |d| / s) := by ring
    _ ≤ (1 - u) * (|rnd d| / s) := by
      apply mul_le_mul_of_nonneg_left _ (by linarith)
      have := low d
      gcongr

set_option maxHeartbeats 400000 in
/-- Numbers that differ are normalised up to `η = (n + 10) u`. -/
theorem C139_normalized {rnd : ℝ → ℝ} {u : ℝ} (hu : 0 ≤ u) (h : RelativeError rnd u) (v : List ℝ) (hv : 2 ≤ v.length)
    (hn : ∀ k : Nat, k ≤ v.length → rnd k = k) (hη : (v.length + 10) * u ≤ 1 / 100) (hpos : 0 < variance v) :
    NormalizedUpTo ((v.length + 10) * u) v (v.map (fun x => rnd (rnd (x - meanRnd rnd v) / stdRnd rnd v))) := by
  obtain ⟨f1, f2, f3, f4, f5, f6, f7⟩ := std_facts hu h v hv hn hη hpos
  have hσ : 0 < Real.sqrt (variance v) := Real.sqrt_pos.2 hpos
  have hne : v ≠ [] := by rintro rfl; simp at hv
  have hN : (2 : ℝ) ≤ v.length := by exact_mod_cast hv
  obtain ⟨p1, p2⟩ := pow_bounds hu (v.length + 10) (by push_cast; exact le_rfl) hη
  set N : ℝ := ((v.length : Nat) : ℝ) with hNd
  set σ := Real.sqrt (variance v)
  set s := stdRnd rnd v
  set m := meanRnd rnd v
  set η := (N + 10) * u with hηd
  set κ := offset v with hκd
  set P := (v.map (fun x => (x - m) ^ 2)).sum / (N - 1) with hPd
  set a := mean v - m with had
  have hη0 : 0 ≤ η := by positivity
  have hu12 : 12 * u ≤ η := mul_le_mul_of_nonneg_right (by linarith) hu
  have hu1 : u ≤ 1 := by linarith
  have hu2 : (1 + u) ^ 2 - 1 ≤ 2 / 10 * η := by
    have e : (1 + u) ^ 2 - 1 = u * (2 + u) := by ring
    have : u * (2 + u) ≤ u * (21 / 10) := mul_le_mul_of_nonneg_left (by linarith) hu
    linarith
  have hs2 : 0 < s ^ 2 := by positivity
  have hP0 : 0 ≤ P := by
    refine div_nonneg (List.sum_nonneg ?_) (by linarith)
    intro x hx
    obtain ⟨y, -, rfl⟩ := List.mem_map.1 hx
    exact sq_nonneg _
  have q := fun x : ℝ => quotient_err hu h f1 (x - m)
  -- the sum of the squares of the exact quotients
  have hT : (v.map (fun x => ((x - m) / s) ^ 2)).sum = (N - 1) * (P / s ^ 2) := by
    have : (fun x : ℝ => ((x - m) / s) ^ 2) = fun x => (1 / s ^ 2) * (x - m) ^ 2 := by
      funext x; rw [div_pow]; ring
    rw [this, sum_map_mul, hPd]
    have : N - 1 ≠ 0 := by linarith
    field_simp
  have hB1 : (1 - u) ^ (v.length + 6) * (P / s ^ 2) ≤ 1 := by
    rw [← mul_div_assoc, div_le_one hs2]
    exact f6
  have hB2 : 1 ≤ (1 + u) ^ (v.length + 6) * (P / s ^ 2) := by
    rw [← mul_div_assoc, le_div_iff₀ hs2, one_mul]
    exact f7
  have hB0 : 0 ≤ P / s ^ 2 := div_nonneg hP0 hs2.le
  set B := P / s ^ 2
  have hB3 : B ≤ 102 / 100 := by
    have h1 : 1 - η ≤ (1 - u) ^ (v.length + 6) := by
      refine p1.trans (pow_le_pow_of_le_one (by linarith) (by linarith) (by omega))
    have := div_small hη0 hη hB0 ((mul_le_mul_of_nonneg_right h1 hB0).trans hB1)
    linarith
  -- the error of the mean
  have haσ : |a| / s ≤ 104 / 100 * η * κ := by
    rw [div_le_iff₀ f1]
    refine f2.trans ?_
    have h1 : 0 ≤ η * κ := mul_nonneg hη0 f3
    have h2 : σ ≤ 1015 / 1000 * s := (div_small hη0 hη hσ.le f4).trans (mul_le_mul_of_nonneg_right (by linarith) f1.le)
    have h3 := mul_le_mul_of_nonneg_left h2 h1
    have h4 := mul_nonneg h1 f1.le
    calc 102 / 100 * η * (κ * σ) = 102 / 100 * (η * κ * σ) := by ring
      _ ≤ 102 / 100 * (η * κ * (1015 / 1000 * s)) := by linarith
      _ = 102 / 100 * (1015 / 1000) * (η * κ * s) := by ring
      _ ≤ 104 / 100 * (η * κ * s) := mul_le_mul_of_nonneg_right (by norm_num) h4
      _ = 104 / 100 * η * κ * s := by ring
  refine ⟨by simp, ?_, ?_, ?_⟩
  · -- squares
    have hlow : (1 - u) ^ 4 * (v.map (fun x => ((x - m) / s) ^ 2)).sum ≤
        ((v.map (fun x => rnd (rnd (x - m) / s))).map (fun x => x ^ 2)).sum := by
      rw [List.map_map, ← sum_map_mul]
      refine sum_map_le fun x _ => ?_
      have h2 := quotient_low hu1 h f1 (x - m)
      show (1 - u) ^ 4 * ((x - m) / s) ^ 2 ≤ rnd (rnd (x - m) / s) ^ 2
      rw [← sq_abs ((x - m) / s), ← sq_abs (rnd _)]
      calc (1 - u) ^ 4 * |(x - m) / s| ^ 2 = ((1 - u) ^ 2 * |(x - m) / s|) ^ 2 := by ring
        _ ≤ _ := pow_le_pow_left₀ (by positivity) h2 2
    have hupp : ((v.map (fun x => rnd (rnd (x - m) / s))).map (fun x => x ^ 2)).sum ≤
        (1 + u) ^ 4 * (v.map (fun x => ((x - m) / s) ^ 2)).sum := by
      rw [List.map_map, ← sum_map_mul]
      refine sum_map_le fun x _ => ?_
      have h1 := q x
      have h2 : |rnd (rnd (x - m) / s)| ≤ (1 + u) ^ 2 * |(x - m) / s| := by
        have : |rnd (rnd (x - m) / s)| ≤ |rnd (rnd (x - m) / s) - (x - m) / s| + |(x - m) / s| := by
          calc |rnd (rnd (x - m) / s)| = |(rnd (rnd (x - m) / s) - (x - m) / s) + (x - m) / s| := by ring_nf
            _ ≤ _ := abs_add_le _ _
        linarith
      show rnd (rnd (x - m) / s) ^ 2 ≤ (1 + u) ^ 4 * ((x - m) / s) ^ 2
      rw [← sq_abs ((x - m) / s), ← sq_abs (rnd _)]
      calc |rnd (rnd (x - m) / s)| ^ 2 ≤ ((1 + u) ^ 2 * |(x - m) / s|) ^ 2 := pow_le_pow_left₀ (abs_nonneg _) h2 2
        _ = _ := by ring
    rw [hT] at hlow hupp
    set W := ((v.map (fun x => rnd (rnd (x - m) / s))).map (fun x => x ^ 2)).sum
    have hN1 : 0 < N - 1 := by linarith
    have w1 : (1 - u) ^ 4 * B ≤ W / (N - 1) := by
      rw [le_div_iff₀ hN1]; linarith
    have w2 : W / (N - 1) ≤ (1 + u) ^ 4 * B := by
      rw [div_le_iff₀ hN1]; linarith
    have hsm : (1 - u) * (1 + u) ≤ 1 := by nlinarith
    have hsm0 : 0 ≤ (1 - u) * (1 + u) := mul_nonneg (by linarith) (by linarith)
    -- lower bound
    have b1 : (1 - u) ^ (v.length + 10) ≤ (1 - u) ^ 4 * B := by
      have : (1 - u) ^ (v.length + 6) ≤ B := by
        calc (1 - u) ^ (v.length + 6) ≤ (1 - u) ^ (v.length + 6) * ((1 + u) ^ (v.length + 6) * B) :=
              le_mul_of_one_le_right (pow_nonneg (by linarith) _) hB2
          _ = ((1 - u) * (1 + u)) ^ (v.length + 6) * B := by rw [mul_pow]; ring
          _ ≤ 1 * B := mul_le_mul_of_nonneg_right (pow_le_one₀ hsm0 hsm) hB0
          _ = B := one_mul _
      calc (1 - u) ^ (v.length + 10) = (1 - u) ^ 4 * (1 - u) ^ (v.length + 6) := by rw [← pow_add]; congr 1; omega
        _ ≤ _ := mul_le_mul_of_nonneg_left this (pow_nonneg (by linarith) _)
    have b2 : (1 - u) ^ (v.length + 10) * ((1 + u) ^ 4 * B) ≤ 1 := by
      calc (1 - u) ^ (v.length + 10) * ((1 + u) ^ 4 * B) =
            ((1 - u) * (1 + u)) ^ 4 * ((1 - u) ^ (v.length + 6) * B) := by
              rw [mul_pow, show v.length + 10 = 4 + (v.length + 6) by omega, pow_add]; ring
        _ ≤ 1 * 1 := mul_le_mul (pow_le_one₀ hsm0 hsm) hB1 (mul_nonneg (pow_nonneg (by linarith) _) hB0) (by norm_num)
        _ = 1 := one_mul _
    rw [abs_le]
    constructor
    · linarith
    · have h0 : 0 ≤ (1 + u) ^ 4 * B := by positivity
      have := div_small hη0 hη h0 ((mul_le_mul_of_nonneg_right p1 h0).trans b2)
      linarith
  · -- mean
    have hsum : |((v.map (fun x => rnd (rnd (x - m) / s))).sum) - (v.map (fun x => (x - m) / s)).sum| ≤
        ((1 + u) ^ 2 - 1) * (v.map (fun x => |(x - m) / s|)).sum := by
      have key : ∀ l : List ℝ, |((l.map (fun x => rnd (rnd (x - m) / s))).sum) - (l.map (fun x => (x - m) / s)).sum| ≤
          ((1 + u) ^ 2 - 1) * (l.map (fun x => |(x - m) / s|)).sum := by
        intro l
        induction l with
        | nil => simp
        | cons x l ih =>
          simp only [List.map_cons, List.sum_cons]
          calc _ = |(rnd (rnd (x - m) / s) - (x - m) / s) +
                ((l.map (fun x => rnd (rnd (x - m) / s))).sum - (l.map (fun x => (x - m) / s)).sum)| := by ring_nf
            _ ≤ _ := abs_add_le _ _
            _ ≤ ((1 + u) ^ 2 - 1) * |(x - m) / s| + ((1 + u) ^ 2 - 1) * (l.map (fun x => |(x - m) / s|)).sum :=
              add_le_add (q x) ih
            _ = _ := by ring
      exact key v
    have ht : (v.map (fun x => (x - m) / s)).sum = N * (a / s) := by
      have e : (fun x : ℝ => (x - m) / s) = fun x => (1 / s) * (x - m) := by funext x; ring
      rw [e, sum_map_mul, sum_map_shift, had]
      unfold mean
      rw [← hNd]
      have : N ≠ 0 := by linarith
      field_simp
    have habs : (v.map (fun x => |(x - m) / s|)).sum ≤ N * (102 / 100) := by
      have h1 : (v.map (fun x => |(x - m) / s|)).sum ≤ (v.map (fun x => 1 / 2 + 1 / 2 * ((x - m) / s) ^ 2)).sum := by
        refine sum_map_le fun x _ => ?_
        rw [← sq_abs ((x - m) / s)]
        nlinarith [sq_nonneg (|(x - m) / s| - 1)]
      rw [sum_map_add, sum_map_const, sum_map_mul, hT] at h1
      refine h1.trans ?_
      have : (N - 1) * B ≤ N * (102 / 100) := mul_le_mul (by linarith) hB3 hB0 (by linarith)
      rw [← hNd]
      linarith
    have hmean : |(v.map (fun x => rnd (rnd (x - m) / s))).sum| ≤ N * (104 / 100 * η * κ) + 2 / 10 * η * (N * (102 / 100)) := by
      have h1 : |(v.map (fun x => rnd (rnd (x - m) / s))).sum| ≤
          |(v.map (fun x => rnd (rnd (x - m) / s))).sum - (v.map (fun x => (x - m) / s)).sum| +
            |(v.map (fun x => (x - m) / s)).sum| := by
        calc _ = |((v.map (fun x => rnd (rnd (x - m) / s))).sum - (v.map (fun x => (x - m) / s)).sum) +
              (v.map (fun x => (x - m) / s)).sum| := by rw [sub_add_cancel]
          _ ≤ _ := abs_add_le _ _
      have h2 : |(v.map (fun x => (x - m) / s)).sum| ≤ N * (104 / 100 * η * κ) := by
        rw [ht, abs_mul, abs_of_nonneg (by linarith : (0 : ℝ) ≤ N), abs_div, abs_of_pos f1]
        exact mul_le_mul_of_nonneg_left haσ (by linarith)
      have h3 : 0 ≤ (v.map (fun x => |(x - m) / s|)).sum := List.sum_nonneg (by
        intro x hx
        obtain ⟨y, -, rfl⟩ := List.mem_map.1 hx
        exact abs_nonneg _)
      have h4 := mul_le_mul hu2 habs h3 (by positivity)
      linarith
    unfold Spec.mean
    rw [List.length_map, ← hNd, abs_div, abs_of_nonneg (by linarith : (0 : ℝ) ≤ N), div_le_iff₀ (by linarith)]
    refine hmean.trans ?_
    have h1 : 0 ≤ N * (η * κ) := mul_nonneg (by linarith) (mul_nonneg hη0 f3)
    have h2 : 0 ≤ N * η := mul_nonneg (by linarith) hη0
    have e1 : 2 * η * (1 + κ) * N = 2 * (N * η) + 2 * (N * (η * κ)) := by ring
    have e2 : N * (104 / 100 * η * κ) + 2 / 10 * η * (N * (102 / 100)) =
        104 / 100 * (N * (η * κ)) + 204 / 1000 * (N * η) := by ring
    rw [e1, e2]
    linarith only [h1, h2]
  · -- each number
    intro i x z hx hz
    rw [List.getElem?_map, hx, Option.map_some, Option.some.injEq] at hz
    subst hz
    set y := (x - mean v) / σ with hy
    have hρ1 : σ / s ≤ 1 + 102 / 100 * η := by
      rw [div_le_iff₀ f1]
      exact div_small hη0 hη hσ.le f4
    have hρ2 : 1 - η - 2 * (102 / 100 * η * κ) ≤ σ / s := by
      have h1 : 0 ≤ η * κ := mul_nonneg hη0 f3
      refine ratio_low hη0 (by linarith) f1 hσ (f5.trans ?_)
      have e : (1 + 2 * (102 / 100 * η * κ)) * σ = σ + 2 * (102 / 100 * η * (κ * σ)) := by ring
      rw [e]
      linarith
    have hsplit : (x - m) / s - y = a / s + y * (σ / s - 1) := by
      rw [hy, had]
      field_simp
      ring
    have hy0 := abs_nonneg y
    have hκη : 0 ≤ η * κ := mul_nonneg hη0 f3
    have hρ : |σ / s - 1| ≤ 102 / 100 * η + 2 * (102 / 100 * η * κ) := by
      rw [abs_le]
      constructor <;> linarith
    have h1 : |(x - m) / s - y| ≤ 104 / 100 * η * κ + |y| * (102 / 100 * η + 2 * (102 / 100 * η * κ)) := by
      rw [hsplit]
      refine (abs_add_le _ _).trans (add_le_add ?_ ?_)
      · rw [abs_div, abs_of_pos f1]
        exact haσ
      · rw [abs_mul]
        exact mul_le_mul_of_nonneg_left hρ hy0
    have h2 : |(x - m) / s| ≤ 104 / 100 * η * κ + 102 / 100 * |y| := by
      have e : (x - m) / s = a / s + y * (σ / s) := by
        rw [hy, had]
        field_simp
        ring
      rw [e]
      refine (abs_add_le _ _).trans (add_le_add ?_ ?_)
      · rw [abs_div, abs_of_pos f1]
        exact haσ
      · rw [abs_mul, abs_of_pos (div_pos hσ f1), mul_comm]
        refine mul_le_mul_of_nonneg_right ?_ hy0
        linarith
    have h3 : |rnd (rnd (x - m) / s) - (x - m) / s| ≤ 2 / 10 * η * (104 / 100 * η * κ + 102 / 100 * |y|) :=
      (q x).trans (mul_le_mul hu2 h2 (abs_nonneg _) (by positivity))
    have h4 : |rnd (rnd (x - m) / s) - y| ≤ |rnd (rnd (x - m) / s) - (x - m) / s| + |(x - m) / s - y| := by
      calc |rnd (rnd (x - m) / s) - y| = |(rnd (rnd (x - m) / s) - (x - m) / s) + ((x - m) / s - y)| := by ring_nf
        _ ≤ _ := abs_add_le _ _
    refine h4.trans ((add_le_add h3 h1).trans ?_)
    have e1 : 4 * η * (1 + κ) * (1 + |y|) = 4 * η + 4 * (η * κ) + 4 * (η * |y|) + 4 * (η * κ * |y|) := by ring
    have e2 : 2 / 10 * η * (104 / 100 * η * κ + 102 / 100 * |y|) +
        (104 / 100 * η * κ + |y| * (102 / 100 * η + 2 * (102 / 100 * η * κ))) =
        (2 / 10 * (104 / 100) * η) * (η * κ) + 204 / 1000 * (η * |y|) + 104 / 100 * (η * κ) + 102 / 100 * (η * |y|) +
          204 / 100 * (η * κ * |y|) := by ring
    rw [e1, e2]
    have g1 : 0 ≤ η * |y| := mul_nonneg hη0 hy0
    have g2 : 0 ≤ η * κ * |y| := mul_nonneg hκη hy0
    have g3 : (2 / 10 * (104 / 100) * η) * (η * κ) ≤ 1 * (η * κ) := mul_le_mul_of_nonneg_right (by linarith) hκη
    linarith

/-- A column whose standard deviation exceeds `1e-10` by 2 % is not taken for a constant column. -/
theorem large_kept {rnd : ℝ → ℝ} {u : ℝ} (hu : 0 ≤ u) (h : RelativeError rnd u) (v : List ℝ) (hv : 2 ≤ v.length)
    (hn : ∀ k : Nat, k ≤ v.length → rnd k = k) (hη : (v.length + 10) * u ≤ 1 / 100)
    (hlarge : 102 / 100 / 10 ^ 10 ≤ Real.sqrt (variance v)) : rnd (1 / 10 ^ 10) ≤ stdRnd rnd v := by
  have hσ : 0 < Real.sqrt (variance v) := lt_of_lt_of_le (by norm_num) hlarge
  obtain ⟨-, -, -, f4, -⟩ := std_facts hu h v hv hn hη (Real.sqrt_pos.1 hσ)
  have hN : (2 : ℝ) ≤ v.length := by exact_mod_cast hv
  have hu12 : 12 * u ≤ (v.length + 10) * u := mul_le_mul_of_nonneg_right (by linarith) hu
  have h1 := rel_abs h (1 / 10 ^ 10)
  have h2 : rnd (1 / 10 ^ 10) ≤ (1 + u) * (1 / 10 ^ 10) := by
    refine (le_abs_self _).trans (h1.trans (le_of_eq ?_))
    rw [abs_of_pos (by norm_num)]
  have h3 : (99 / 100) * Real.sqrt (variance v) ≤ (1 - (v.length + 10) * u) * Real.sqrt (variance v) :=
    mul_le_mul_of_nonneg_right (by linarith) hσ.le
  have h4 : (1 + u) * (1 / 10 ^ 10 : ℝ) ≤ (1 + 1 / 1200) * (1 / 10 ^ 10) :=
    mul_le_mul_of_nonneg_right (by linarith) (by norm_num)
  have h5 : (1 + 1 / 1200 : ℝ) * (1 / 10 ^ 10) ≤ 99 / 100 * (102 / 100 / 10 ^ 10) := by norm_num
  linarith

theorem colOf_getElem? {K : Type} (X : Mat K) (c r : Nat) (hr : r < X.nr) : (colOf X c)[r]? = some (X.get r c) := by
  simp [colOf, List.getElem?_range hr]

theorem length_colOf {K : Type} (X : Mat K) (c : Nat) : (colOf X c).length = X.nr := by simp [colOf]

/-- Normalised data sets: no column is refused if the standard deviations are above `1e-10` by 2 %, and columns and
response are normalised up to `η = (n + 10) u`. -/
theorem C139_dataset (rnd : ℝ → ℝ) (u : ℝ) (hu : 0 ≤ u) (h : RelativeError rnd u) (X : Mat ℝ) (y : List ℝ)
    (hr : 2 ≤ X.nr) (hy : y.length = X.nr) (hn : ∀ k : Nat, k ≤ X.nr → rnd k = k) (hη : (X.nr + 10) * u ≤ 1 / 100)
    (hcols : ∀ c < X.nc, c ≠ 0 → 102 / 100 / 10 ^ 10 ≤ Real.sqrt (variance (colOf X c))) (hvar : 0 < variance y) :
    ∃ d w, newNormalizedDataRnd rnd X y = some d ∧ d.X.nr = X.nr ∧ d.X.nc = X.nc ∧
      (∀ c < X.nc, 102 / 100 / 10 ^ 10 ≤ Real.sqrt (variance (colOf X c)) →
        NormalizedUpTo ((X.nr + 10) * u) (colOf X c) (colOf d.X c)) ∧
      d.y = w.map Fl.fin ∧ NormalizedUpTo ((X.nr + 10) * u) y w := by
  have keep : ∀ c, 102 / 100 / 10 ^ 10 ≤ Real.sqrt (variance (colOf X c)) →
      rnd (1 / 10 ^ 10) ≤ stdRnd rnd (colOf X c) := fun c hc =>
    large_kept hu h (colOf X c) (by rw [length_colOf]; exact hr) (by rw [length_colOf]; exact hn)
      (by rw [length_colOf]; exact hη) hc
  rcases newNormalizedDataRnd_inv rnd X y with ⟨⟨c, hc, h0, hs⟩, -⟩ | ⟨d, h1, h2, h3⟩
  · exact absurd (keep c (hcols c hc h0)) (not_le.2 hs)
  · refine ⟨d, y.map (fun x => rnd (rnd (x - meanRnd rnd y) / stdRnd rnd y)), h1, h2.nr, h2.nc, ?_, ?_, ?_⟩
    · intro c hc hl
      have hσ : 0 < Real.sqrt (variance (colOf X c)) := lt_of_lt_of_le (by norm_num) hl
      have h4 := C139_normalized hu h (colOf X c) (by rw [length_colOf]; exact hr) (by rw [length_colOf]; exact hn)
        (by rw [length_colOf]; exact hη) (Real.sqrt_pos.1 hσ)
      rw [length_colOf] at h4
      have e : colOf d.X c =
          (colOf X c).map (fun x => rnd (rnd (x - meanRnd rnd (colOf X c)) / stdRnd rnd (colOf X c))) := by
        apply List.ext_getElem?
        intro r
        rcases Nat.lt_or_ge r X.nr with hlt | hge
        · rw [colOf_getElem? _ _ _ (by rw [h2.nr]; exact hlt), List.getElem?_map, colOf_getElem? _ _ _ hlt,
            h2.done r c hc hlt, if_neg (not_lt.2 (keep c hl))]
          rfl
        · rw [List.getElem?_eq_none (by rw [length_colOf, h2.nr]; exact hge),
            List.getElem?_eq_none (by rw [List.length_map, length_colOf]; exact hge)]
      rw [e]
      exact h4
    · have hs := (C139_std rnd u hu h y (by rw [hy]; exact hr) (by rw [hy]; exact hn) (by rw [hy]; exact hη) hvar).1
      rw [h3]
      unfold normalizeArrayRnd
      simp only [if_neg hs.ne', List.map_map]
      rfl
    · have := C139_normalized hu h y (by rw [hy]; exact hr) (by rw [hy]; exact hn) (by rw [hy]; exact hη) hvar
      rwa [hy] at this

/-- Double precision, barring underflow and overflow. -/
theorem C139_binary64 (X : Mat ℝ) (y : List ℝ) (hr : 2 ≤ X.nr) (hbig : X.nr ≤ 2 ^ 46) (hy : y.length = X.nr)
    (hcols : ∀ c < X.nc, c ≠ 0 → 102 / 100 / 10 ^ 10 ≤ Real.sqrt (variance (colOf X c))) (hvar : 0 < variance y) :
    ∃ d w, newNormalizedDataRnd rnd53 X y = some d ∧ d.X.nr = X.nr ∧ d.X.nc = X.nc ∧
      (∀ c < X.nc, 102 / 100 / 10 ^ 10 ≤ Real.sqrt (variance (colOf X c)) →
        NormalizedUpTo ((X.nr + 10) / 2 ^ 53) (colOf X c) (colOf d.X c)) ∧
      d.y = w.map Fl.fin ∧ NormalizedUpTo ((X.nr + 10) / 2 ^ 53) y w := by
  have hb : (X.nr : ℝ) ≤ 2 ^ 46 := by exact_mod_cast hbig
  have := C139_dataset rnd53 (1 / 2 ^ 53) (by positivity) rnd53_rel X y hr hy
    (fun k hk => rnd53_nat (hk.trans (hbig.trans (by norm_num)))) (by
      rw [mul_one_div, div_le_iff₀ (by positivity)]
      have h1 : (2 : ℝ) ^ 46 + 10 ≤ 1 / 100 * 2 ^ 53 := by norm_num
      linarith) hcols hvar
  rwa [mul_one_div] at this

/-! ### Example -/

/-- Three rows: a constant column and `1, 2, 3`. -/
def normX : Mat ℝ := ⟨3, 2, fun r c => if c = 0 then 1 else r + 1⟩

theorem normX_col : colOf normX 1 = [1, 2, 3] := by
  simp [colOf, normX, List.range_succ]
  norm_num

theorem variance_123 : variance ([1, 2, 3] : List ℝ) = 1 := by
  norm_num [variance, Spec.mean]

/-- The column `1, 2, 3` has offset 2, so that the normalised numbers are `-1, 0, 1` up to `2 ^ (-44)`. -/
example : ∃ d, newNormalizedDataRnd rnd53 normX [1, 2, 4] = some d ∧
    |d.X.get 0 1 - (-1)| ≤ 1 / 2 ^ 44 ∧ |d.X.get 1 1| ≤ 1 / 2 ^ 44 ∧ |d.X.get 2 1 - 1| ≤ 1 / 2 ^ 44 := by
  have hl : 102 / 100 / 10 ^ 10 ≤ Real.sqrt (variance (colOf normX 1)) := by
    rw [normX_col, variance_123, Real.sqrt_one]; norm_num
  obtain ⟨d, w, h1, h2, h3, h4, -, -⟩ := C139_binary64 normX [1, 2, 4] (by decide) (by norm_num [normX]) rfl
    (by
      intro c hc h0
      have : c = 1 := by have : c < 2 := hc; omega
      rw [this]
      exact hl) (by norm_num [variance, Spec.mean])
  have h5 := h4 1 (by decide) hl
  rw [normX_col] at h5
  have ho : offset ([1, 2, 3] : List ℝ) = 2 := by
    unfold offset
    rw [variance_123, Real.sqrt_one]
    norm_num
  have hm : Spec.mean ([1, 2, 3] : List ℝ) = 2 := by norm_num [Spec.mean]
  have hnr : normX.nr = 3 := rfl
  have h6 := h5.each
  rw [ho, hm, variance_123, Real.sqrt_one, hnr] at h6
  refine ⟨d, h1, ?_, ?_, ?_⟩
  · have := h6 0 1 (d.X.get 0 1) rfl (colOf_getElem? _ _ _ (by rw [h2]; decide))
    norm_num at this ⊢
    linarith
  · have := h6 1 2 (d.X.get 1 1) rfl (colOf_getElem? _ _ _ (by rw [h2]; decide))
    norm_num at this ⊢
    linarith
  · have := h6 2 3 (d.X.get 2 1) rfl (colOf_getElem? _ _ _ (by rw [h2]; decide))
    norm_num at this ⊢
    linarith

end GoSelect
