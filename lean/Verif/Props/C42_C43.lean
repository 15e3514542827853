import Verif.Spec.Dataset
import Verif.Proofs.MapM
import Mathlib.Data.List.Nodup
import Mathlib.Tactic.Linarith

/-! C42: feature names and numbers.  C43: subsets of features. -/

namespace GoSelect

open Spec

variable {K : Type}

theorem goGetInt_nat {β : Type} (a : List β) (i : Nat) : goGetInt a (i : Int) = a[i]? := by
  unfold goGetInt
  rw [if_neg (by omega), Int.toNat_natCast]

theorem featNoLoop_found (t : Int) {names : List String} (hn : names.Nodup) (j : Nat)
    (hj : j < names.length) (i : Int) :
    featNoLoop t names[j] names i = some (if i + j > t then i + j - 1 else i + j) := by
  induction names generalizing i j with
  | nil => simp at hj
  | cons n names ih =>
    cases j with
    | zero => simp only [featNoLoop, List.getElem_cons_zero, if_true]; split <;> simp_all
    | succ j =>
      rw [List.nodup_cons] at hn
      have hne : n ≠ names[j]'(by simpa using hj) := fun h => hn.1 (h ▸ List.getElem_mem _)
      rw [featNoLoop]
      simp only [List.getElem_cons_succ]
      rw [if_neg hne, ih hn.2 j (by simpa using hj) (i + 1)]
      have : i + 1 + (j : Int) = i + ((j + 1 : Nat) : Int) := by omega
      rw [this]

theorem featNoLoop_missing (t : Int) (name : String) (names : List String) (i : Int)
    (h : name ∉ names) : featNoLoop t name names i = none := by
  induction names generalizing i with
  | nil => rfl
  | cons n names ih =>
    rw [List.mem_cons, not_or] at h
    rw [featNoLoop, if_neg (fun hh => h.1 hh.symm), ih _ h.2]

/-- The position of a feature among the names. -/
def featPos (t : Int) (i : Nat) : Nat := if (i : Int) < t then i else i + 1

theorem getFeatName_eq (d : Dataset K) (i : Nat) : d.getFeatName i = d.names[featPos d.targetCol i]? := by
  unfold Dataset.getFeatName featPos
  split
  · exact goGetInt_nat _ _
  · rw [show ((i : Int) + 1) = ((i + 1 : Nat) : Int) by omega, goGetInt_nat]

theorem featPos_inj (t : Int) {i j : Nat} (h : featPos t i = featPos t j) : i = j := by
  unfold featPos at h
  split at h <;> split at h <;> omega

/-- **C42.** Every feature has a name, and the number of that name is the feature: for any names
without repetition, one more than there are features, and any target column. -/
theorem C42_inverse (d : Dataset K) (hn : d.names.length = d.X.nc + 1) (hd : d.names.Nodup) (i : Nat)
    (hi : i < d.X.nc) : ∃ name, d.getFeatName i = some name ∧ d.featNoByName name = some (i : Int) := by
  have hp : featPos d.targetCol i < d.names.length := by unfold featPos; split <;> omega
  refine ⟨d.names[featPos d.targetCol i], ?_, ?_⟩
  · rw [getFeatName_eq, List.getElem?_eq_getElem hp]
  · unfold Dataset.featNoByName
    rw [featNoLoop_found _ hd]
    unfold featPos
    congr 1
    by_cases h : (i : Int) < d.targetCol
    · rw [if_pos h]; rw [if_neg (by omega)]; omega
    · rw [if_neg h, if_pos (by push_cast; omega)]; push_cast; omega

/-- **C42.** Different features have different names. -/
theorem C42_injective (d : Dataset K) (hn : d.names.length = d.X.nc + 1) (hd : d.names.Nodup)
    (i j : Nat) (hi : i < d.X.nc) (hj : j < d.X.nc) (h : d.getFeatName i = d.getFeatName j) :
    i = j := by
  obtain ⟨a, ha, ha'⟩ := C42_inverse d hn hd i hi
  obtain ⟨b, hb, hb'⟩ := C42_inverse d hn hd j hj
  rw [ha, hb] at h
  obtain rfl := Option.some.inj h
  rw [ha'] at hb'
  have := Option.some.inj hb'
  omega

/-- **C42.** No feature has the name of the target. -/
theorem C42_not_target (d : Dataset K) (h : WellFormed d) (i : Nat) (hi : i < d.X.nc) :
    ∃ target, goGetInt d.names d.targetCol = some target ∧ d.getFeatName i ≠ some target := by
  obtain ⟨t, ht⟩ := Int.eq_ofNat_of_zero_le h.target0
  have h1 := h.target1
  have h2 := h.names
  have htl : t < d.names.length := by omega
  refine ⟨d.names[t], by rw [ht, goGetInt_nat, List.getElem?_eq_getElem htl], ?_⟩
  rw [getFeatName_eq]
  have hp : featPos d.targetCol i < d.names.length := by unfold featPos; split <;> omega
  rw [List.getElem?_eq_getElem hp]
  intro heq
  have := (List.Nodup.getElem_inj_iff h.distinct).1 (Option.some.inj heq)
  unfold featPos at this
  split at this <;> omega

/-- **C42.** Unknown names panic. -/
theorem C42_unknown (d : Dataset K) (name : String) (h : name ∉ d.names) :
    d.featNoByName name = none := featNoLoop_missing _ _ _ _ h

/-- Three columns, target in the middle. -/
def exData : Dataset Int := ⟨⟨2, 2, fun r c => 10 * r + c⟩, [7, 8], ["a", "y", "b"], 1⟩

theorem exData_wf : WellFormed exData := ⟨rfl, by decide, by decide, by decide, rfl⟩

example : exData.getFeatName 1 = some "b" ∧ exData.featNoByName "b" = some 1 := by decide

/-! ### C43 -/

/-- The features exist. -/
def FeaturesOf (d : Dataset K) (features : List Int) : Prop := ∀ v ∈ features, 0 ≤ v ∧ v < d.X.nc

variable [Zero K]

/-- `GetSubset` in closed form. -/
theorem getSubset_some (d : Dataset K) (h : WellFormed d) (hnr : 0 < d.X.nr) (features : List Int)
    (hne : features ≠ []) (hf : FeaturesOf d features) :
    ∃ s target fn, d.getSubset features = some s ∧ goGetInt d.names d.targetCol = some target ∧
      features.mapM d.getFeatName = some fn ∧
      s = ⟨⟨d.X.nr, features.length, fun r c => d.X.get r (features.getD c 0).toNat⟩, d.Y, fn ++ [target],
        features.length⟩ := by
  obtain ⟨t, ht⟩ := Int.eq_ofNat_of_zero_le h.target0
  have h1 := h.target1
  have h2 := h.names
  have htl : t < d.names.length := by omega
  have htarget : goGetInt d.names d.targetCol = some d.names[t] := by
    rw [ht, goGetInt_nat, List.getElem?_eq_getElem htl]
  obtain ⟨fn, hfn⟩ := mapM_isSome (f := d.getFeatName) (l := features) (by
    intro v hv
    obtain ⟨a, b⟩ := hf v hv
    obtain ⟨i, rfl⟩ := Int.eq_ofNat_of_zero_le a
    obtain ⟨name, hname, -⟩ := C42_inverse d h.names h.distinct i (by omega)
    exact ⟨name, hname⟩)
  refine ⟨_, d.names[t], fn, ?_, htarget, hfn, rfl⟩
  unfold Dataset.getSubset
  have hlen : features.length ≠ 0 := by simpa using hne
  rw [if_neg (by omega), if_neg, hfn, htarget]
  · simp only
    congr 2
    unfold goCopy
    rw [← h.y]
    simp
  · rw [List.any_eq_true]
    rintro ⟨v, hv, hb⟩
    obtain ⟨a, b⟩ := hf v hv
    simp at hb
    omega

/-- **C43.** Feature `k` of the subset has the name and the column of feature `features[k]`. -/
theorem C43_features (d : Dataset K) (h : WellFormed d) (hnr : 0 < d.X.nr) (features : List Int)
    (hne : features ≠ []) (hf : FeaturesOf d features) :
    ∃ s, d.getSubset features = some s ∧ s.X.nr = d.X.nr ∧ s.X.nc = features.length ∧
      ∀ k (hk : k < features.length), s.getFeatName k = d.getFeatName features[k] ∧
        ∀ r, s.X.get r k = d.X.get r features[k].toNat := by
  obtain ⟨s, target, fn, h1, h2, h3, rfl⟩ := getSubset_some d h hnr features hne hf
  refine ⟨_, h1, rfl, rfl, ?_⟩
  intro k hk
  constructor
  · rw [mapM_getElem h3 k hk]
    unfold Dataset.getFeatName
    simp only
    rw [if_pos (by omega), goGetInt_nat, List.getElem?_append_left (by rw [mapM_length h3]; exact hk),
      List.getElem?_eq_getElem]
  · intro r
    simp [List.getElem?_eq_getElem hk]

/-- **C43.** The target keeps its name and values and becomes the last column. -/
theorem C43_target (d : Dataset K) (h : WellFormed d) (hnr : 0 < d.X.nr) (features : List Int)
    (hne : features ≠ []) (hf : FeaturesOf d features) :
    ∃ s, d.getSubset features = some s ∧ s.Y = d.Y ∧ s.targetCol = features.length ∧
      s.names.length = features.length + 1 ∧
      goGetInt s.names s.targetCol = goGetInt d.names d.targetCol := by
  obtain ⟨s, target, fn, h1, h2, h3, rfl⟩ := getSubset_some d h hnr features hne hf
  refine ⟨_, h1, rfl, rfl, by simp [mapM_length h3], ?_⟩
  rw [h2]
  simp only
  rw [goGetInt_nat, List.getElem?_append_right (by rw [mapM_length h3]), mapM_length h3]
  simp

/-- The subset is well formed if no feature is listed twice. -/
theorem C43_wellFormed (d : Dataset K) (h : WellFormed d) (hnr : 0 < d.X.nr) (features : List Int)
    (hne : features ≠ []) (hf : FeaturesOf d features) (hd : features.Nodup) :
    ∃ s, d.getSubset features = some s ∧ WellFormed s := by
  obtain ⟨s, target, fn, h1, h2, h3, rfl⟩ := getSubset_some d h hnr features hne hf
  refine ⟨_, h1, by simp [mapM_length h3], ?_, by simp, by simp, h.y⟩
  simp only
  rw [List.nodup_append]
  have hget : ∀ k (hk : k < features.length), d.getFeatName features[k] = some (fn[k]'(by rw [mapM_length h3]; exact hk)) :=
    fun k hk => mapM_getElem h3 k hk
  refine ⟨?_, by simp, ?_⟩
  · rw [List.nodup_iff_injective_get]
    rintro ⟨i, hi⟩ ⟨j, hj⟩ hij
    simp only [List.get_eq_getElem] at hij
    rw [mapM_length h3] at hi hj
    have e := (hget i hi).trans ((congrArg some hij).trans (hget j hj).symm)
    obtain ⟨a1, a2⟩ := hf _ (List.getElem_mem hi)
    obtain ⟨b1, b2⟩ := hf _ (List.getElem_mem hj)
    obtain ⟨a, ha⟩ := Int.eq_ofNat_of_zero_le a1
    obtain ⟨b, hb⟩ := Int.eq_ofNat_of_zero_le b1
    rw [ha, hb] at e
    have := C42_injective d h.names h.distinct a b (by omega) (by omega) e
    have heq : features[i] = features[j] := by rw [ha, hb, this]
    simpa using (List.Nodup.getElem_inj_iff hd).1 heq
  · intro x hx y hy
    rw [List.mem_singleton] at hy
    subst hy
    rintro rfl
    obtain ⟨k, hk, rfl⟩ := List.mem_iff_getElem.1 hx
    rw [mapM_length h3] at hk
    obtain ⟨a1, a2⟩ := hf _ (List.getElem_mem hk)
    obtain ⟨a, ha⟩ := Int.eq_ofNat_of_zero_le a1
    obtain ⟨target', ht', hne'⟩ := C42_not_target d h a (by omega)
    rw [ht'] at h2
    apply hne'
    rw [h2, ← hget k hk, ha]

/-- **C43.** A subset of a subset is the composed subset. -/
theorem C43_compose (d : Dataset K) (h : WellFormed d) (hnr : 0 < d.X.nr) (f1 f2 : List Int)
    (hne1 : f1 ≠ []) (hne2 : f2 ≠ []) (hf1 : FeaturesOf d f1)
    (hf2 : ∀ v ∈ f2, 0 ≤ v ∧ v < f1.length) :
    ∃ s s12 c, d.getSubset f1 = some s ∧ s.getSubset f2 = some s12 ∧
      d.getSubset (f2.map (fun v => f1.getD v.toNat 0)) = some c ∧
      s12.names = c.names ∧ s12.Y = c.Y ∧ s12.targetCol = c.targetCol ∧
      s12.X.nr = c.X.nr ∧ s12.X.nc = c.X.nc ∧ ∀ r k, k < c.X.nc → s12.X.get r k = c.X.get r k := by
  have hfc : FeaturesOf d (f2.map (fun v => f1.getD v.toNat 0)) := by
    intro v hv
    obtain ⟨w, hw, rfl⟩ := List.mem_map.1 hv
    obtain ⟨a, b⟩ := hf2 w hw
    have hlt : w.toNat < f1.length := by omega
    rw [List.getD_eq_getElem?_getD, List.getElem?_eq_getElem hlt]
    exact hf1 _ (List.getElem_mem hlt)
  obtain ⟨s, target, fn, h1, h2, h3, rfl⟩ := getSubset_some d h hnr f1 hne1 hf1
  obtain ⟨c, target', fnc, g1, g2, g3, rfl⟩ := getSubset_some d h hnr _ (by simpa using hne2) hfc
  rw [h2] at g2
  obtain rfl := Option.some.inj g2
  -- names of the subset of the subset
  have hname : ∀ v ∈ f2, Dataset.getFeatName (⟨⟨d.X.nr, f1.length, fun r c => d.X.get r (f1.getD c 0).toNat⟩, d.Y,
      fn ++ [target], f1.length⟩ : Dataset K) v = d.getFeatName (f1.getD v.toNat 0) := by
    intro v hv
    obtain ⟨a, b⟩ := hf2 v hv
    have hlt : v.toNat < f1.length := by omega
    obtain ⟨i, rfl⟩ := Int.eq_ofNat_of_zero_le a
    rw [Int.toNat_natCast] at hlt ⊢
    rw [List.getD_eq_getElem?_getD, List.getElem?_eq_getElem hlt]
    simp only [Option.getD_some]
    rw [mapM_getElem h3 i hlt]
    unfold Dataset.getFeatName
    simp only
    rw [if_pos b, goGetInt_nat, List.getElem?_append_left (by rw [mapM_length h3]; exact hlt),
      List.getElem?_eq_getElem]
  have hmap : f2.mapM (Dataset.getFeatName (⟨⟨d.X.nr, f1.length, fun r c => d.X.get r (f1.getD c 0).toNat⟩, d.Y,
      fn ++ [target], f1.length⟩ : Dataset K)) = some fnc := by
    rw [mapM_some_iff] at g3 ⊢
    rw [← g3, List.map_map]
    exact List.map_congr_left hname
  have htarget : goGetInt (fn ++ [target]) (f1.length : Int) = some target := by
    rw [goGetInt_nat, List.getElem?_append_right (by rw [mapM_length h3]), mapM_length h3]
    simp
  refine ⟨_, ⟨⟨d.X.nr, f2.length, fun r c => d.X.get r (f1.getD (f2.getD c 0).toNat 0).toNat⟩, d.Y,
    fnc ++ [target], f2.length⟩, _, h1, ?_, g1, rfl, rfl, by simp, rfl, by simp, ?_⟩
  · unfold Dataset.getSubset
    have hlen : f2.length ≠ 0 := by simpa using hne2
    rw [if_neg (by simp only; omega), if_neg]
    · rw [hmap]
      simp only [htarget]
      congr 2
      unfold goCopy
      rw [← h.y]
      simp
    · rw [List.any_eq_true]
      rintro ⟨v, hv, hb⟩
      obtain ⟨a, b⟩ := hf2 v hv
      simp at hb
      omega
  · intro r k hk
    simp only [List.length_map] at hk
    simp [List.getElem?_eq_getElem hk]

/-- A feature number out of range panics. -/
theorem C43_panic (d : Dataset K) (features : List Int) (v : Int) (hv : v ∈ features)
    (h : v < 0 ∨ (d.X.nc : Int) ≤ v) : d.getSubset features = none := by
  unfold Dataset.getSubset
  split
  · rfl
  · rw [if_pos]
    rw [List.any_eq_true]
    exact ⟨v, hv, by simpa using h⟩

/-- `Copy` is an equal data set (csvIO.go:94-103). -/
theorem C43_copy (d : Dataset K) : d.copy = d := rfl

example : ∃ s, exData.getSubset [1] = some s ∧ s.names = ["b", "y"] ∧ s.targetCol = 1 ∧
    s.X.get 1 0 = 11 := ⟨_, rfl, by decide, rfl, rfl⟩

end GoSelect
