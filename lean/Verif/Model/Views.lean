import Verif.Model.Mat

/-!
# Views

Model of subview.go and sliceVec.go.  A `mat.Matrix` is what its methods return: `Dims`, and `At`, which may
panic (`none`).  Indices are Go `int`s.
-/

namespace GoSelect

/-- The interface `mat.Matrix` without `T`. -/
structure MatI (K : Type) where
  dims : Int × Int
  at' : Int → Int → Option K

/-- The interface `mat.Vector`. -/
structure VecI (K : Type) extends MatI K where
  atVec : Int → Option K
  len : Int

/-- `mat.Transpose{m}`: swaps the arguments of `At` and the results of `Dims`. -/
def transposeI {K : Type} (m : MatI K) : MatI K := ⟨(m.dims.2, m.dims.1), fun i j => m.at' j i⟩

/-- Go's `a[i]`. -/
def goIdx {K : Type} (a : List K) (i : Int) : Option K := if i < 0 then none else a[i.toNat]?

/-- gonum's `Dense`: `At` panics outside the dimensions. -/
def denseI {K : Type} (X : Mat K) : MatI K :=
  ⟨(X.nr, X.nc), fun i j =>
    if i < 0 ∨ (X.nr : Int) ≤ i ∨ j < 0 ∨ (X.nc : Int) ≤ j then none else some (X.get i.toNat j.toNat)⟩

/-- subview.go:8-35 `IndexedColView`. -/
def indexedColView {K : Type} (m : MatI K) (colInd : List Int) : MatI K :=
  ⟨(m.dims.1, colInd.length), fun i j => (goIdx colInd j).bind (fun c => m.at' i c)⟩

/-- subview.go:38-74 `IndexedColVecView`. -/
def indexedColVecView {K : Type} (v : VecI K) (rows : List Int) : VecI K :=
  let at' := fun (i _j : Int) => (goIdx rows i).bind (fun r => v.atVec r)
  { dims := (rows.length, 1), at' := at', atVec := fun i => at' i 0, len := rows.length }

/-- sliceVec.go:9-43 `SliceVec`. -/
def sliceVec {K : Type} (data : List K) : VecI K :=
  { dims := (data.length, 1), at' := fun i _ => goIdx data i, atVec := fun i => goIdx data i, len := data.length }

end GoSelect
