import Verif.Rules.Model
/-
`RulesGenerator.iter_rules` called more than once on one generator. The field `added_package_ids` is set anew by each call
(rules_generator.py:171), the field `_rules_set` is not (rules_generator.py:158): a call begins with the rules that are
there. The pool and the request are objects of the caller that may have changed in between.
-/
namespace Verif.Rules
open Verif Verif.Pkg

variable {N S U : Type} [DecidableEq N] [DecidableEq S] [LinearOrder U] [Syntax S U]

/-- `generator.iter_rules()` when `_rules_set` has the rules `kept`; `pool` and `jobs` are those of the time of the call;
rules_generator.py:167-179. -/
def iterRulesAgain (strict : Bool) (pool : Pool N S U) (jobs : List (Job N U)) (installed : Dict Nat (Package N S U))
    (kept : List (Rule N U)) : Except PErr (Gen N U) := do
  let g ← addJobs strict pool installed jobs ⟨kept, []⟩
  addInstalled strict pool (installed.map Prod.snd) g

/-- Calls of `iter_rules` on one new generator, one after the other, each with the pool and the jobs of its time: what
the last one returns. The first exception ends the sequence (what `_rules_set` has then is not modelled).
rules_generator.py:155-179 -/
def iterRulesCalls (strict : Bool) (installed : Dict Nat (Package N S U)) :
    List (Pool N S U × List (Job N U)) → List (Rule N U) → Except PErr (List (Rule N U))
  | [], kept => .ok kept
  | (pool, jobs) :: calls, kept => do
    let g ← iterRulesAgain strict pool jobs installed kept
    iterRulesCalls strict installed calls g.rules

end Verif.Rules
