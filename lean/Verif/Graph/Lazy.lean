import Verif.Graph.Model
import Verif.PyDict
/-
`breadth_first_search` as the generator that it is: it runs only as far as its consumer asks, may be given a `visited`
dictionary by the caller, and calls `neighbor_func` at certain moments. `Graph.breadthFirstSearch` of Graph/Model.lean is
the same function consumed to the end with no dictionary given.
-/
namespace Verif.Graph
open Verif

variable {α β : Type} [DecidableEq α] [DecidableEq β]

/-- The generator at some moment. `node = some x`: the node `x` was taken from the queue and looked at, its neighbours
were not asked for yet; if its path was yielded, this is the moment at which the generator is suspended in `yield`
(utils/graph.py:243). `paths` and `asked` record what was yielded and on which nodes `neighbor_func` was called, in that
order. `failed`: `backtrack` raised a KeyError. -/
structure BfsGen (α β : Type) where
  queue : List α
  visited : Dict α (Option α)
  targets : List β
  node : Option α
  paths : List (List α)
  asked : List α
  ended : Bool
  failed : Bool

/-- `breadth_first_search(start, neighbor_func, targets, target_func, visited)` before its loop; graph.py:233-236.
`visited` is the dictionary of the caller, empty if none is given. -/
def bfsBegin (start : α) (targets : List β) (visited : Dict α (Option α)) : BfsGen α β where
  queue := [start]
  visited := dset visited start none
  targets := fromkeys targets
  node := none
  paths := []
  asked := []
  ended := false
  failed := false

/-- The first half of a turn of the loop: the test of the loop, or a node is taken from the queue and, if it hits a
target, its path is yielded; graph.py:237-243. -/
def bfsTake (start : α) (t : α → β) (s : BfsGen α β) : BfsGen α β :=
  match s.queue with
  | [] => { s with ended := true }
  | node :: queue =>
    if t node ∈ s.targets then
      match backtrack start s.visited node with
      | .error _ => { s with ended := true, failed := true }
      | .ok path =>
        { s with queue := queue, node := some node, targets := sdiscard (t node) s.targets, paths := s.paths ++ [path] }
    else { s with queue := queue, node := some node }

/-- The second half: the loop ends if no target is left, otherwise the neighbours of the node are asked for and
queued; graph.py:244-251. -/
def bfsAsk (f : α → List α) (node : α) (s : BfsGen α β) : BfsGen α β :=
  if s.targets = [] then { s with ended := true }
  else
    let r := bfsExpand node (f node) s.queue s.visited
    { s with queue := r.1, visited := r.2, node := none, asked := s.asked ++ [node] }

/-- One half turn of the loop; graph.py:237-251. -/
def bfsStep (start : α) (f : α → List α) (t : α → β) (s : BfsGen α β) : BfsGen α β :=
  if s.ended then s
  else match s.node with
    | none => bfsTake start t s
    | some node => bfsAsk f node s

/-- The generator after `n` half turns; graph.py:192-251. A consumer that stops early leaves it at some `n`. -/
def bfsRun (start : α) (f : α → List α) (t : α → β) (targets : List β) (visited : Dict α (Option α)) :
    Nat → BfsGen α β
  | 0 => bfsBegin start targets visited
  | n + 1 => bfsStep start f t (bfsRun start f t targets visited n)

/-! ### connected_nodes with a record of the calls; utils/graph.py:159-176 -/

/-- The loop of `connected_nodes` as in `connectedLoop`, with the nodes on which `neighbor_func` was called, in that
order; graph.py:171-176. -/
def connectedLoopLog {ε : Type} (pop : PopOrder α) (f : α → Except ε (List α)) :
    Nat → List α → List α → Option (Except ε (List α)) × List α
  | 0, _, _ => (none, [])
  | fuel + 1, queue, visited =>
    if queue = [] then (some (.ok visited), [])
    else
      let node := pop.pick fuel queue
      let queue := sdiscard node queue
      let visited := sadd node visited
      match f node with
      | .error e => (some (.error e), [node])
      | .ok nb =>
        let r := connectedLoopLog pop f fuel (supdate (nb.filter (fun x => decide (x ∉ visited))) queue) visited
        (r.1, node :: r.2)

/-- `connected_nodes(node, neighbor_func, visited)` with its calls of `neighbor_func`; graph.py:159-176. -/
def connectedNodesLog {ε : Type} (pop : PopOrder α) (f : α → Except ε (List α)) (fuel : Nat) (node : α)
    (visited : List α) : Option (Except ε (List α)) × List α :=
  connectedLoopLog pop f fuel [node] visited

end Verif.Graph
