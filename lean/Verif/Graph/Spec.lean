import Mathlib.Logic.Relation
/-
Specification of the graph algorithms: edges, reachability and paths, independent of the algorithms.
A graph is a dictionary from node to the list of its successors; reachability is Mathlib's
`Relation.ReflTransGen` / `Relation.TransGen`.
-/
namespace Verif.Graph
variable {α ε : Type}

/-- `g[x]` contains `y` -/
def Edge (g : List (α × List α)) (x y : α) : Prop := ∃ v, (x, v) ∈ g ∧ y ∈ v

/-- `x` depends on another node `y` (self dependencies do not count) -/
def Dep (g : List (α × List α)) (x y : α) : Prop := Edge g x y ∧ y ≠ x

/-- nodes: the keys and everything that appears as a dependency -/
def IsNode (g : List (α × List α)) (x : α) : Prop := x ∈ g.map Prod.fst ∨ ∃ y, Edge g y x

/-- one step of a neighbour function that may raise -/
def Step (f : α → Except ε (List α)) (x y : α) : Prop := ∃ nb, f x = .ok nb ∧ y ∈ nb

/-- `PathTo f start x p`: `p` is a path `start, ..., x` that follows `f` -/
inductive PathTo (f : α → List α) (start : α) : α → List α → Prop
  | start : PathTo f start start [start]
  | snoc {x y p} : PathTo f start x p → y ∈ f x → PathTo f start y (p ++ [y])

/-- the neighbour function of the graph without the nodes of `V` -/
def without [DecidableEq α] (f : α → List α) (V : List α) (x : α) : List α := (f x).filter (fun y => decide (y ∉ V))

end Verif.Graph
