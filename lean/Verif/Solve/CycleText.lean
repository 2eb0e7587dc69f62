import Verif.Solve.Transaction
import Verif.Solve.Unsat
/-
Model of the message of the ValueError that `toposort` raises for cyclic dependencies (simplesat/utils/graph.py:82-90), and of the
one that a transaction raises for this reason (simplesat/transaction.py:107-120).

Texts are lists of characters. `repr` of a text (`str` of a list of texts uses it) is a parameter, and so is the order in which the
set of remaining dependencies is iterated.
-/
namespace Verif.Solve
open Verif Verif.Pkg Verif.Graph

/-- The line of one item: `id2string(key) + ' -> ' + str([id2string(x) for x in value])`; graph.py:88 -/
def cycleLine (repr : List Char → List Char) (item : List Char × List (List Char)) : List Char :=
  item.1 ++ " -> ".toList ++ '[' :: (joinWith ", ".toList (item.2.map repr) ++ [']'])

/-- `"Cyclic dependencies exist among these items:\n{}".format('\n'.join(cyclic))`; graph.py:85-90 -/
def cycleText (repr : List Char → List Char) (items : List (List Char × List (List Char))) : List Char :=
  "Cyclic dependencies exist among these items:\n".toList ++ joinWith ['\n'] (items.map (cycleLine repr))

/-- the texts of the items that remain; graph.py:87-89 -/
def cycleItems {α : Type} (id2string : α → List Char) (order : List α → List α) (rest : Adj α) :
    List (List Char × List (List Char)) :=
  rest.map (fun kv => (id2string kv.1, (order kv.2).map id2string))

section
variable {N S U : Type} [LinearOrder N] [DecidableEq S] [LinearOrder U] [Syntax S U]

/-- `_key_to_pretty_string(package_id)`; transaction.py:107-112. For an id that the pool does not know the code raises; the
decisions of a transaction are known at this point because the graph has been made (graph.py:117-118). -/
def keyToPretty (T : Texts N U) (pool : Pool N S U) (l : Int) : List Char :=
  match packageKey pool l.natAbs with
  | .error _ => []
  | .ok (n, v) => if 0 < l then T.name n ++ '-' :: T.version v else '-' :: '(' :: (T.name n ++ '-' :: (T.version v ++ [')']))

/-- The message of the ValueError that `_safe_operations` lets through, if `toposort` raises; transaction.py:115-120 -/
def transactionCycle (T : Texts N U) (repr : List Char → List Char) (order : List Int → List Int) (pool : Pool N S U)
    (decisions : List Int) : Option (List Char) :=
  match packageLitDependencyGraph pool decisions true with
  | .error _ => none
  | .ok graph => match (toposort graph).2 with
    | .cyclic rest => some (cycleText repr (cycleItems (keyToPretty T pool) order rest))
    | _ => none

end
end Verif.Solve
