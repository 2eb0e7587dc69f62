import Verif.Sat.Rename
import Verif.Props.SatCore
/-
Property C114: the SAT solver does not depend on the numbers of the variables, but on their order.
-/
set_option linter.unusedSectionVars false
namespace Verif.Props
open Verif Verif.Sat

/-! ### specification -/

/-- the literal of the variable that has a new number, with the same sign -/
def renumber (g : Nat → Nat) (l : Int) : Int := if 0 ≤ l then g l.natAbs else -(g l.natAbs)

/-- the variables get other numbers, in the same order -/
structure Renumbering (g : Nat → Nat) : Prop where
  increasing : ∀ a b, a < b → g a < g b
  zero : g 0 = 0

/-- outcomes of a search that correspond to each other: the same exception, or assignments with the same values, the variables
being listed in the same order -/
inductive Renumbered (g : Nat → Nat) : Except Err ASet → Except Err ASet → Prop where
  | error (e : Err) : Renumbered g (.error e) (.error e)
  | ok {a a' : ASet} : a'.items = a.items.map (fun kv => (renumber g kv.1, kv.2)) →
      (∀ l, a'.value (renumber g l) = a.value l) → Renumbered g (.ok a) (.ok a')

/-! ### the theorems -/

/-- the renaming -/
private def Renumbering.ren {g : Nat → Nat} (h : Renumbering g) : Ren := ⟨g, fun {a b} => h.increasing a b, h.zero⟩

private theorem lit_eq {g : Nat → Nat} (h : Renumbering g) : h.ren.lit = renumber g := by
  funext l; unfold Ren.lit renumber; rfl

private theorem of_erel {g : Nat → Nat} (h : Renumbering g) {x y : Except Err ASet} (hxy : ERel (ARel h.ren) x y) :
    Renumbered g x y := by
  cases hxy with
  | error e => exact .error e
  | ok ha =>
    refine .ok ?_ ?_
    · rw [ha.items, lit_eq h]
    · intro l
      have := ha.data l
      rw [lit_eq h] at this
      exact this

/-- C114: with the policy that `from_rules` uses by default -/
theorem C114_renumbered_rules {g : Nat → Nat} (h : Renumbering g) (fuel : Nat) (G : List (List Int)) :
    Renumbered g (solveRules defaultPolicy fuel () G) (solveRules defaultPolicy fuel () (G.map (List.map (renumber g)))) := by
  have := solveRules_ren (f := h.ren) (R := fun _ _ => True) defaultPolicy_ren (ps := ()) (ps' := ()) trivial fuel G
  rw [lit_eq h] at this
  exact of_erel h this

/-- C114: with the policy of the dependency solver, if the variables keep their versions, the installed and the requested
packages are renumbered, and the candidates are gone through in the same order -/
theorem C114_renumbered_packages {g : Nat → Nat} (h : Renumbering g) {V : Type} [LinearOrder V] {ver ver' : Int → Option V}
    (hver : ∀ l, ver' (renumber g l) = ver l) {order order' : Nat → List Int → List Int}
    (ho : ∀ n l, order' n (l.map (renumber g)) = (order n l).map (renumber g)) (fuel : Nat) (prefer reqs : List Int)
    (G : List (List Int)) :
    Renumbered g (solveRules (packagePolicy ver order) fuel (PolState.start prefer reqs) G)
      (solveRules (packagePolicy ver' order') fuel
        (PolState.start (prefer.map (renumber g)) (reqs.map (renumber g))) (G.map (List.map (renumber g)))) := by
  have := solveRules_ren (f := h.ren) (packagePolicy_ren (ver := ver) (ver' := ver') (order := order) (order' := order')
    (by rw [lit_eq h]; exact hver) (by rw [lit_eq h]; exact ho)) (start_ren (f := h.ren) prefer reqs) fuel G
  rw [lit_eq h] at this
  exact of_erel h this

/-! ### concrete cases -/

private theorem double : Renumbering (fun n => 2 * n) := ⟨fun a b h => by show 2 * a < 2 * b; omega, rfl⟩

/-- the hypothesis is met, and both outcomes occur -/
example : Renumbered (fun n => 2 * n) (solveRules defaultPolicy 100 () [[1, -2], [2, 3], [-1]])
    (solveRules defaultPolicy 100 () [[2, -4], [4, 6], [-2]]) := C114_renumbered_rules double 100 _

example : (match solveRules defaultPolicy 100 () [[1, -2], [2, 3], [-1]] with | .ok a => a.items | _ => []) =
    [(1, some false), (2, some false), (3, some true)] := by decide +kernel

example : (match solveRules defaultPolicy 100 () [[2, -4], [4, 6], [-2]] with | .ok a => a.items | _ => []) =
    [(2, some false), (4, some false), (6, some true)] := by decide +kernel

example : (match solveRules defaultPolicy 100 () [[1], [-1]] with | .ok a => a.items | .error _ => [(0, none)]) =
    [(0, none)] := by decide +kernel

/-- the order matters: if 1 and 2 are exchanged, then so are not the values -/
example : (match solveRules defaultPolicy 100 () [[1, 2], [-1, -2]] with | .ok a => a.items | _ => []) =
      [(1, some true), (2, some false)] ∧
    (match solveRules defaultPolicy 100 () [[2, 1], [-2, -1]] with | .ok a => a.items | _ => []) =
      [(1, some true), (2, some false)] := by decide +kernel

end Verif.Props
