import Verif.Nd.Model
import Mathlib.Data.List.Forall2

/-!
# Specification vocabulary for arrays

What it means to look at element `idx` of an array, independent of loops and odometers.
-/

namespace Bliss.Nd

/-- `idx` is an index of an array of shape `shape`: same rank, every entry in range. -/
def ValidIdx (shape idx : List Int) : Prop := List.Forall₂ (fun s i => 0 ≤ i ∧ i < s) shape idx

/-- Offset of element `idx` in the block: every dimension adds its offset and `index * stride`. -/
def addr : List Dim → List Int → Int
  | d :: ds, i :: is => d.offset + i * d.stride + addr ds is
  | _, _ => 0

/-- The element at `idx`, `none` when it is outside the allocation. -/
def Heap.get {V : Type} (h : Heap V) (a : Arr) (idx : List Int) : Option V :=
  h.mem a.blk (addr a.dims idx)

/-- Array `a` holds the values `A` at every valid index. -/
def Heap.Contains {V : Type} (h : Heap V) (a : Arr) (A : List Int → V) : Prop :=
  ∀ idx, ValidIdx a.shape idx → h.get a idx = some (A idx)

/-- No dimension has a negative size. -/
def Arr.WF (a : Arr) : Prop := ∀ d ∈ a.dims, 0 ≤ d.size

/-- Distinct indices are distinct elements (true of every array and slice with non-zero strides;
false of, e.g., a view that repeats elements). -/
def Arr.Distinct (a : Arr) : Prop :=
  ∀ i j, ValidIdx a.shape i → ValidIdx a.shape j → addr a.dims i = addr a.dims j → i = j

/-- Every element of the view is inside its allocation. -/
def Heap.Mapped {V : Type} (h : Heap V) (a : Arr) : Prop :=
  ∀ idx, ValidIdx a.shape idx → h.get a idx ≠ none

/-- `h'` differs from `h` exactly in the elements of view `a`, which now hold `A`. -/
def Heap.Updated {V : Type} (h h' : Heap V) (a : Arr) (A : List Int → V) : Prop :=
  h'.Contains a A ∧ ∀ b i, (b = a.blk → ∀ idx, ValidIdx a.shape idx → addr a.dims idx ≠ i) →
    h'.mem b i = h.mem b i

/-- The index into an array of shape `shape` that broadcasting reads for output index `idx`:
aligned at the last dimension, 0 where the size is 1. -/
def bcIdx (shape idx : List Int) : List Int :=
  List.zipWith (fun s i => if s = 1 then 0 else i) shape (idx.drop (idx.length - shape.length))

/-- Shape `s` can be broadcast to `out`: aligned at the last dimension, each size is equal or 1. -/
def BroadcastsTo (s out : List Int) : Prop :=
  s.length ≤ out.length ∧
    List.Forall₂ (fun x o => x = o ∨ x = 1) s (out.drop (out.length - s.length))

/-- Every block in `h` survives unchanged in `h'`: an operation that returns a new array leaves all
existing arrays alone. -/
def Heap.Frame {V : Type} (h h' : Heap V) : Prop := ∀ b, b < h.next → h'.mem b = h.mem b

/-- `r` is a view of `a`: element `idx` of `r` is element `f idx` of `a`. -/
structure ViewOf (r a : Arr) (f : List Int → List Int) : Prop where
  blk : r.blk = a.blk
  valid : ∀ idx, ValidIdx r.shape idx → ValidIdx a.shape (f idx)
  addr : ∀ idx, ValidIdx r.shape idx → addr r.dims idx = addr a.dims (f idx)

/-- The element a slice selects: along dimension `dim`, element `i` is `start + i * stride`. -/
def sliceIdx (dim : Nat) (start stride : Int) (idx : List Int) : List Int :=
  idx.modify dim (fun i => start + i * stride)

/-- Chained slices select through every step, the last slice first. -/
def sliceIdxMany : List SliceSpec → List Int → List Int
  | [], idx => idx
  | s :: ss, idx => sliceIdx s.dim.toNat s.start s.stride (sliceIdxMany ss idx)

/-- Number of elements `start, start+stride, …` that are `< stop`. -/
def stepCount (start stop stride : Int) : Int := (stop - start + stride - 1) / stride

/-- Element `idx` of the array an operation returned, if it returned one. -/
def resultAt {V : Type} (x : Outcome (Heap V × Arr)) (idx : List Int) : Option V :=
  match x with
  | .ok (h, r) => h.get r idx
  | _ => none

/-- Element at offset `i` of block `b` after an in-place operation. -/
def heapAt {V : Type} (x : Outcome (Heap V)) (b : Nat) (i : Int) : Option V :=
  match x with
  | .ok h => h.mem b i
  | _ => none

/-- Shape of the array an operation returned. -/
def resultShape {V : Type} (x : Outcome (Heap V × Arr)) : Option (List Int) :=
  match x with
  | .ok (_, r) => some r.shape
  | _ => none

/-- Undefined behaviour, as a Boolean (for concrete examples). -/
def isUb {α : Type} : Outcome α → Bool
  | .ub => true
  | _ => false

end Bliss.Nd
