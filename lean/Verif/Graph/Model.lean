import Verif.Py
/-
Model of simplesat/utils/graph.py (except package_lit_dependency_graph, which is in Verif/Pkg).

A Python dict from node to set(node) is an association list with distinct keys, in insertion order; a set is a list
whose order and repetitions do not matter (theorems quantify over all lists, hence over all iteration orders).
-/
namespace Verif.Graph
open Verif

variable {α β ε : Type} [DecidableEq α] [DecidableEq β]

/-- Adjacency dictionary. -/
abbrev Adj (α : Type) := List (α × List α)

/-! ### toposort; utils/graph.py:14-90 -/

/-- How the generator ends: normally, or with the ValueError whose message lists the remaining items. `outOfFuel`
belongs to the model. -/
inductive TopoEnd (α : Type) where
  | done
  | cyclic (rest : Adj α)
  | outOfFuel

/-- Copy without self dependencies, plus empty entries for dependency-only nodes; graph.py:60-72. -/
def topoData (g : Adj α) : Adj α :=
  let data := g.map (fun kv => (kv.1, sdiscard kv.1 kv.2))
  let extra := (fromkeys (data.flatMap Prod.snd)).filter (fun x => decide (x ∉ data.map Prod.fst))
  data ++ extra.map (fun x => (x, []))

/-- One turn of the loop: the items without dependencies, and the rest without them; graph.py:75-81. -/
def topoReady (data : Adj α) : List α := (data.filter (fun kv => kv.2.isEmpty)).map Prod.fst

def topoRest (data : Adj α) (ordered : List α) : Adj α :=
  (data.filter (fun kv => decide (kv.1 ∉ ordered))).map (fun kv => (kv.1, kv.2.filter (fun d => decide (d ∉ ordered))))

/-- The loop; graph.py:74-90. Result: the groups yielded and how the generator ended. -/
def topoLoop : Nat → Adj α → List (List α) × TopoEnd α
  | 0, _ => ([], .outOfFuel)
  | fuel + 1, data =>
    let ordered := topoReady data
    if ordered = [] then ([], if data = [] then .done else .cyclic data)
    else
      let r := topoLoop fuel (topoRest data ordered)
      (ordered :: r.1, r.2)

/-- `toposort(nodes_to_edges)`; graph.py:14-90. Every turn but the last removes an item. -/
def toposort (g : Adj α) : List (List α) × TopoEnd α :=
  topoLoop ((topoData g).length + 1) (topoData g)

/-! ### transitive_neighbors; utils/graph.py:138-156 -/

inductive GErr where
  | keyError
  | outOfFuel
deriving DecidableEq

/-- dictionary lookup -/
def adjGet (g : Adj α) (x : α) : Option (List α) := (g.find? (fun kv => decide (kv.1 = x))).map Prod.snd

/-- `trans[node].update(xs)` on the defaultdict `trans`: creates the entry if needed; graph.py:152-155. -/
def transUpdate : Adj α → α → List α → Adj α
  | [], x, xs => [(x, supdate xs [])]
  | kv :: t, x, xs => if kv.1 = x then (x, supdate xs kv.2) :: t else kv :: transUpdate t x xs

/-- the loop over `neighbors`, `rec` being the recursive call of `_transitive`; graph.py:153-155. -/
def transNeighbors (rec : α → Adj α → Except GErr (Adj α)) (node : α) : List α → Adj α → Except GErr (Adj α)
  | [], trans => .ok trans
  | nb :: rest, trans =>
    match rec nb trans with
    | .error e => .error e
    | .ok trans => transNeighbors rec node rest (transUpdate trans node ((adjGet trans nb).getD []))

/-- `_transitive(node, nodes_to_edges, trans)`: the updated `trans`; graph.py:147-156. The fuel bounds the depth of
the recursion. -/
def transNode (g : Adj α) : Nat → α → Adj α → Except GErr (Adj α)
  | 0, _, _ => .error .outOfFuel
  | fuel + 1, node, trans =>
    if (adjGet trans node).isSome then .ok trans
    else match adjGet g node with
      | none => .error .keyError
      | some neighbors => transNeighbors (transNode g fuel) node neighbors (transUpdate trans node neighbors)

/-- the loop of `transitive_neighbors`; graph.py:142-143 -/
def transAll (g : Adj α) (fuel : Nat) : List α → Adj α → Except GErr (Adj α)
  | [], trans => .ok trans
  | x :: xs, trans => match transNode g fuel x trans with
    | .error e => .error e
    | .ok trans => transAll g fuel xs trans

/-- `transitive_neighbors(nodes_to_edges)`; graph.py:138-144. The recursion enters each key at most once, so its depth
is at most the number of keys plus one. -/
def transitiveNeighbors (g : Adj α) : Except GErr (Adj α) :=
  transAll g (g.length + 1) (g.map Prod.fst) []

/-! ### connected_nodes; utils/graph.py:159-176 -/

/-- How `set.pop()` chooses: an arbitrary element, depending on the moment. -/
structure PopOrder (α : Type) where
  pick : Nat → List α → α
  mem : ∀ n l, l ≠ [] → pick n l ∈ l

/-- The loop; graph.py:171-176. `f` is `neighbor_func`, which may raise. `none` = out of fuel. -/
def connectedLoop (pop : PopOrder α) (f : α → Except ε (List α)) :
    Nat → List α → List α → Option (Except ε (List α))
  | 0, _, _ => none
  | fuel + 1, queue, visited =>
    if queue = [] then some (.ok visited)
    else
      let node := pop.pick fuel queue
      let queue := sdiscard node queue
      let visited := sadd node visited
      match f node with
      | .error e => some (.error e)
      | .ok nb => connectedLoop pop f fuel (supdate (nb.filter (fun x => decide (x ∉ visited))) queue) visited

/-- `connected_nodes(node, neighbor_func, visited)`; graph.py:159-176. -/
def connectedNodes (pop : PopOrder α) (f : α → Except ε (List α)) (fuel : Nat) (node : α) (visited : List α) :
    Option (Except ε (List α)) :=
  connectedLoop pop f fuel [node] visited

/-! ### breadth_first_search; utils/graph.py:179-251 -/

/-- `backtrack(end, start, visited)`, the nodes collected so far being given last-first as in `path`; graph.py:179-189.
`visited[node]` is a KeyError for an unknown node; the value `None` of `start` cannot be reached. -/
def backtrackLoop (start : α) (visited : List (α × Option α)) : Nat → α → List α → Except GErr (List α)
  | 0, _, _ => .error .outOfFuel
  | fuel + 1, node, path =>
    if node = start then .ok path
    else match (visited.find? (fun kv => decide (kv.1 = node))).map Prod.snd with
      | some (some parent) => backtrackLoop start visited fuel parent (parent :: path)
      | _ => .error .keyError

/-- A chain of parents has at most as many nodes as `visited`. -/
def backtrack (start : α) (visited : List (α × Option α)) (node : α) : Except GErr (List α) :=
  backtrackLoop start visited (visited.length + 1) node [node]

/-- `for neighbor in neighbor_func(node)`: extend queue and visited; graph.py:247-251. -/
def bfsExpand (node : α) : List α → List α → List (α × Option α) → List α × List (α × Option α)
  | [], queue, visited => (queue, visited)
  | nb :: rest, queue, visited =>
    if nb ∈ visited.map Prod.fst then bfsExpand node rest queue visited
    else bfsExpand node rest (queue ++ [nb]) (visited ++ [(nb, some node)])

/-- The loop; graph.py:237-251. `t` is `target_func` (the identity if none is given). Returns the yielded paths. -/
def bfsLoop (start : α) (f : α → List α) (t : α → β) :
    Nat → List α → List (α × Option α) → List β → Except GErr (List (List α))
  | 0, _, _, _ => .error .outOfFuel
  | _ + 1, [], _, _ => .ok []
  | fuel + 1, node :: queue, visited, targets =>
    let targets' := sdiscard (t node) targets
    let next := if targets' = [] then .ok [] else
      let r := bfsExpand node (f node) queue visited
      bfsLoop start f t fuel r.1 r.2 targets'
    if t node ∈ targets then
      match backtrack start visited node with
      | .error e => .error e
      | .ok path => match next with
        | .error e => .error e
        | .ok paths => .ok (path :: paths)
    else next

/-- `breadth_first_search(start, neighbor_func, targets, target_func)`, consumed to the end; graph.py:192-251. -/
def breadthFirstSearch (start : α) (f : α → List α) (t : α → β) (targets : List β) (fuel : Nat) :
    Except GErr (List (List α)) :=
  bfsLoop start f t fuel [start] [(start, none)] (fromkeys targets)

end Verif.Graph
