import Verif.Nd.Spec

/-!
# Specification vocabulary for reductions

Which elements a reduction over a list of axes combines, in terms of multi-indices only.
-/

namespace Bliss.Stat

open Bliss.Nd

/-- What is left of a shape or multi-index when the listed axes are removed; an empty list of axes
stands for all of them. -/
def remaining (axes : List Int) (l : List Int) : List Int :=
  if axes = [] then [] else (l.zipIdx.filter (fun p => (p.2 : Int) ∉ axes)).map Prod.fst

/-- A reduction that leaves no axis returns an array of shape `{1}`. -/
def orUnit (x : Int) (l : List Int) : List Int := if l = [] then [x] else l

/-- Axes a caller may pass: existing ones, none twice. -/
def GoodAxes (a : Arr) (axes : List Int) : Prop :=
  axes.Nodup ∧ ∀ d ∈ axes, 0 ≤ d ∧ d < a.dims.length

/-- `l` lists every element of an array of shape `shape` that belongs to result element `o`, each
exactly once. -/
def Enumerates (shape axes o : List Int) (l : List (List Int)) : Prop :=
  l.Nodup ∧ ∀ j, j ∈ l ↔ ValidIdx shape j ∧ orUnit 0 (remaining axes j) = o

/-- An operation returned a new array of shape `shape` with contents `A`, and no existing array
changed. -/
def Returns {V : Type} (h : Heap V) (x : Outcome (Heap V × Arr)) (shape : List Int)
    (A : List Int → V) : Prop :=
  ∃ h' r, x = .ok (h', r) ∧ r.shape = shape ∧ r.blk = h.next ∧ h'.next = h.next + 1 ∧
    h'.Contains r A ∧ h.Frame h'

/-- The same for an operation that returns two new arrays. -/
def Returns2 {V : Type} (h : Heap V) (x : Outcome (Heap V × Arr × Arr)) (shape : List Int)
    (A B : List Int → V) : Prop :=
  ∃ h' r s, x = .ok (h', r, s) ∧ r.shape = shape ∧ s.shape = shape ∧ r.blk = h.next ∧
    s.blk = h.next + 1 ∧ h'.next = h.next + 2 ∧ h'.Contains r A ∧ h'.Contains s B ∧ h.Frame h'

end Bliss.Stat
