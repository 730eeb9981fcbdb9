import Verif.Comp.Model
import Mathlib.Logic.Relation
import Mathlib.Algebra.Order.Group.Abs
import Mathlib.Algebra.Order.Group.Int

/-!
# Vocabulary of the component-search properties
-/

namespace Bliss.Comp

/-- `y` is `x` displaced by one of the offsets of a neighbourhood. -/
def Neighbour (nbh : List Coord) (x y : Coord) : Prop :=
  ∃ o ∈ nbh, y.1 = x.1 + o.1 ∧ y.2 = x.2 + o.2

/-- `b` can be reached from `a` by neighbourhood steps that stay in `S`. -/
def Reaches (nbh : List Coord) (S : Coord → Prop) (a b : Coord) : Prop :=
  Relation.ReflTransGen (fun x y => S y ∧ Neighbour nbh x y) a b

/-- A neighbourhood that contains the opposite of each of its offsets. -/
def SymmetricNbh (nbh : List Coord) : Prop := ∀ o ∈ nbh, (-o.1, -o.2) ∈ nbh

/-- Manhattan distance between two cells. -/
def l1 (a b : Coord) : Int := |a.1 - b.1| + |a.2 - b.2|

/-- All cells of all clusters, in report order. -/
def allCells {F : Type} (hits : List (Protohit F)) : List Coord := hits.flatMap (·.locations)

end Bliss.Comp
