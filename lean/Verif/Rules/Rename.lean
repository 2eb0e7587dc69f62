import Verif.Rename
import Verif.Rules.Terminates
import Mathlib.Data.List.Basic
/-
The rules that are generated from a pool, and from a larger one with the same packages in the same order for the names that are
asked for: they are the same up to the numbers of the packages.
-/
set_option linter.unusedSectionVars false
namespace Verif
open Verif.Pkg

theorem bindMap {ε α α' β β' : Type} {x : Except ε α} {x' : Except ε α'} {φ : α → α'} {ψ : β → β'} {g : α → Except ε β}
    {g' : α' → Except ε β'} (hx : x' = x.map φ) (hg : ∀ a, x = .ok a → g' (φ a) = (g a).map ψ) :
    (x' >>= g') = (x >>= g).map ψ := by
  subst hx
  cases x with
  | error e => rfl
  | ok a => exact hg a rfl

theorem bindSame {ε α β β' : Type} {x x' : Except ε α} {ψ : β → β'} {g : α → Except ε β}
    {g' : α → Except ε β'} (hx : x' = x) (hg : ∀ a, x = .ok a → g' a = (g a).map ψ) :
    (x' >>= g') = (x >>= g).map ψ := by
  subst hx
  cases x' with
  | error e => rfl
  | ok a => exact hg a rfl

namespace Rules

variable {N S U : Type} [LinearOrder N] [DecidableEq S] [LinearOrder U] [Syntax S U]

/-- `p` is one of the packages -/
def Good (l : List (Package N S U)) (p : Package N S U) : Prop := ∃ q ∈ l, q.key = p.key

/-- the pool `pool'` has the packages `l` of `pool`, numbered in the same order, and others, which provide none of the names `A`;
the packages of `l` mention names of `A` only -/
structure Sub (f : Ren) (A : N → Prop) (l : List (Package N S U)) (pool pool' : Pool N S U) : Prop where
  names : ∀ n, A n → dget pool'.packagesByName n = dget pool.packagesByName n
  ids : ∀ p, A p.name → pool'.packageId p = (pool.packageId p).map f.nat
  back : ∀ i, dget pool'.idToPackage (f.nat i) = dget pool.idToPackage i
  mods : pool'.modifiers = pool.modifiers
  closed : ∀ p ∈ l, A p.name ∧ (∀ t ∈ p.installRequires, A t.1) ∧ (∀ t ∈ p.conflicts, A t.1)
  ok : pool.OK l
  ok' : ∃ l', pool'.OK l'

/-- the rule with other numbers -/
def Rule.ren (f : Ren) (r : Rule N U) : Rule N U := { r with literals := r.literals.map f.lit }

/-- the generated rules with other numbers -/
def Gen.ren (f : Ren) (g : Gen N U) : Gen N U := ⟨g.rules.map (Rule.ren f), g.added.map f.nat⟩

section
variable (f : Ren)

theorem mkRule_ren (l : List Int) (reason : Reason) (reqs : Reqs N U) : mkRule (l.map f.lit) reason reqs = (mkRule l reason reqs).ren f := by
  unfold mkRule Rule.ren
  simp only
  rw [sortBy_map (key := id) (fun x y => by simpa using f.lit_le)]

theorem lits_inj {a b : List Int} : a.map f.lit = b.map f.lit ↔ a = b :=
  (Function.Injective.list_map (fun _ _ h => f.lit_injective h)).eq_iff

theorem addRule_ren (r : Rule N U) (rules : List (Rule N U)) :
    addRule (r.ren f) (rules.map (Rule.ren f)) = (addRule r rules).map (Rule.ren f) := by
  unfold addRule
  have e : (rules.map (Rule.ren f)).any (fun r' => decide (r'.literals = (r.ren f).literals)) =
      rules.any (fun r' => decide (r'.literals = r.literals)) := by
    rw [List.any_map]
    congr 1
    funext r'
    simp only [Function.comp, Rule.ren, lits_inj]
  rw [e]
  split
  · rfl
  · simp

theorem addRule?_ren (r : Option (Rule N U)) (rules : List (Rule N U)) :
    addRule? (r.map (Rule.ren f)) (rules.map (Rule.ren f)) = (addRule? r rules).map (Rule.ren f) := by
  cases r with
  | none => rfl
  | some r => exact addRule_ren f r rules

end

variable {f : Ren} {A : N → Prop} {l : List (Package N S U)} {pool pool' : Pool N S U}

namespace Sub

theorem good_closed (h : Sub f A l pool pool') {p : Package N S U} (hp : Good l p) :
    A p.name ∧ (∀ t ∈ p.installRequires, A t.1) ∧ (∀ t ∈ p.conflicts, A t.1) := by
  obtain ⟨q, hq, hk⟩ := hp
  have h1 := h.closed q hq
  obtain ⟨k1, -, k3, k4⟩ := key_fields hk
  simp only [k1, k3, k4] at h1
  exact h1

theorem good_id (h : Sub f A l pool pool') {p : Package N S U} (hp : Good l p) :
    pool'.packageId p = (pool.packageId p).map f.nat := h.ids p (h.good_closed hp).1

theorem whatProvides (h : Sub f A l pool pool') {r : Requirement N U} (hr : A r.name) (b : Bool) :
    pool'.whatProvides r b = pool.whatProvides r b := by
  unfold Pool.whatProvides
  have e : pool'.modifyRequirement r = pool.modifyRequirement r := by
    unfold Pool.modifyRequirement; rw [h.mods]
  rw [h.names _ hr, e]
  cases hd : dget pool.packagesByName r.name with
  | none => rfl
  | some ps =>
    simp only
    cases hm : (if b = true then pool.modifyRequirement r else Except.ok r) with
    | error e => rfl
    | ok r' =>
      have := Props.looked_name ((Props.looked_iff pool b r r').1 hm)
      simp only
      rw [this, h.names _ hr]

theorem provided_good (h : Sub f A l pool pool') {r : Requirement N U} {b : Bool} {ps : List (Package N S U)}
    (hp : pool.whatProvides r b = .ok ps) : ∀ p ∈ ps, Good l p :=
  fun p hm => ⟨p, ((Props.mem_whatProvides h.ok hp p).1 hm).1, rfl⟩

theorem candidateIds (h : Sub f A l pool pool') (p : Package N S U) (ds : List (Package N S U)) (hd : ∀ d ∈ ds, Good l d) :
    Rules.candidateIds pool' p ds = (Rules.candidateIds pool p ds).map (List.map f.lit) := by
  induction ds with
  | nil => rfl
  | cons d ds ih =>
    rw [Rules.candidateIds, Rules.candidateIds]
    split
    · exact ih (fun d hd' => hd d (by simp [hd']))
    · refine bindMap (h.good_id (hd d (by simp))) (fun i _ => ?_)
      refine bindMap (ih (fun d hd' => hd d (by simp [hd']))) (fun r _ => ?_)
      simp [Except.map]

theorem dependencyRule (h : Sub f A l pool pool') {p : Package N S U} (hp : Good l p) {ds : List (Package N S U)}
    (hd : ∀ d ∈ ds, Good l d) (reason : Reason) (reqs : Reqs N U) :
    Rules.dependencyRule pool' p ds reason reqs = (Rules.dependencyRule pool p ds reason reqs).map (Rule.ren f) := by
  unfold Rules.dependencyRule
  refine bindMap (h.good_id hp) (fun i _ => ?_)
  refine bindMap (h.candidateIds p ds hd) (fun r _ => ?_)
  simp only [Except.map, ← mkRule_ren, List.map_cons, f.lit_neg, f.lit_natCast]

theorem conflictRule (h : Sub f A l pool pool') {p q : Package N S U} (hp : Good l p) (hq : Good l q) (reason : Reason)
    (reqs : Reqs N U) :
    Rules.conflictRule pool' p q reason reqs = (Rules.conflictRule pool p q reason reqs).map (Option.map (Rule.ren f)) := by
  unfold Rules.conflictRule
  split
  · rfl
  · refine bindMap (h.good_id hp) (fun i _ => ?_)
    refine bindMap (h.good_id hq) (fun r _ => ?_)
    simp only [Except.map, Option.map, ← mkRule_ren, List.map_cons, List.map_nil, f.lit_neg, f.lit_natCast]

theorem idsOfAll (h : Sub f A l pool pool') (ds : List (Package N S U)) (hd : ∀ d ∈ ds, Good l d) :
    Rules.idsOfAll pool' ds = (Rules.idsOfAll pool ds).map (List.map f.lit) := by
  induction ds with
  | nil => rfl
  | cons d ds ih =>
    rw [Rules.idsOfAll, Rules.idsOfAll]
    refine bindMap (h.good_id (hd d (by simp))) (fun i _ => ?_)
    refine bindMap (ih (fun d hd' => hd d (by simp [hd']))) (fun r _ => ?_)
    simp [Except.map]

theorem installOneOfRule (h : Sub f A l pool pool') (ds : List (Package N S U)) (hd : ∀ d ∈ ds, Good l d) (reason : Reason)
    (reqs : Reqs N U) :
    Rules.installOneOfRule pool' ds reason reqs = (Rules.installOneOfRule pool ds reason reqs).map (Rule.ren f) := by
  unfold Rules.installOneOfRule
  refine bindMap (h.idsOfAll ds hd) (fun r _ => ?_)
  simp only [Except.map, ← mkRule_ren]

theorem removeRule (h : Sub f A l pool pool') {p : Package N S U} (hp : Good l p) (reason : Reason) (reqs : Reqs N U) :
    Rules.removeRule pool' p reason reqs = (Rules.removeRule pool p reason reqs).map (Rule.ren f) := by
  unfold Rules.removeRule
  refine bindMap (h.good_id hp) (fun i _ => ?_)
  simp only [Except.map, ← mkRule_ren, List.map_cons, List.map_nil, f.lit_neg, f.lit_natCast]

theorem addRequires (h : Sub f A l pool pool') (strict : Bool) {p : Package N S U} (hp : Good l p) (reqs : Reqs N U)
    (cs : List (CTuple N S)) (hcs : ∀ t ∈ cs, A t.1) : ∀ (rules : List (Rule N U)) (queued : List (Work N S U)),
    Rules.addRequires strict pool' p reqs cs (rules.map (Rule.ren f)) queued =
      (Rules.addRequires strict pool p reqs cs rules queued).map (fun r => (r.1.map (Rule.ren f), r.2)) := by
  induction cs with
  | nil => intro rules queued; rfl
  | cons c cs ih =>
    intro rules queued
    rw [Rules.addRequires, Rules.addRequires]
    refine bindSame rfl (fun req hreq => ?_)
    have hn : A req.name := by rw [(fromConstraints_name hreq).1]; exact hcs c (by simp)
    refine bindSame (h.whatProvides hn true) (fun cands hc => ?_)
    split
    · refine bindSame rfl (fun _ _ => ?_)
      refine bindMap (h.removeRule hp _ _) (fun rule _ => ?_)
      simp only [Except.map, addRule_ren]
    · refine bindMap (h.dependencyRule hp (h.provided_good hc) _ _) (fun rule _ => ?_)
      rw [addRule_ren]
      exact ih (fun t ht => hcs t (by simp [ht])) _ _

theorem addRequires_good (h : Sub f A l pool pool') {strict : Bool} {p : Package N S U} {reqs : Reqs N U}
    {cs : List (CTuple N S)} {rules rules' : List (Rule N U)} {queued more : List (Work N S U)}
    (hr : Rules.addRequires strict pool p reqs cs rules queued = .ok (rules', more)) (hq : ∀ w ∈ queued, Good l w.1) :
    ∀ w ∈ more, Good l w.1 := by
  induction cs generalizing rules queued with
  | nil =>
    simp only [Rules.addRequires, Except.ok.injEq, Prod.mk.injEq] at hr
    obtain ⟨-, rfl⟩ := hr
    exact hq
  | cons c cs ih =>
    unfold Rules.addRequires at hr
    simp only [bind_ok] at hr
    obtain ⟨req, hreq, cands, hc, hr⟩ := hr
    split at hr
    · simp only [bind_ok] at hr
      obtain ⟨_, -, _, -, hr⟩ := hr
      simp only [Except.ok.injEq, Prod.mk.injEq] at hr
      obtain ⟨-, rfl⟩ := hr
      simp
    · simp only [bind_ok] at hr
      obtain ⟨_, -, hr⟩ := hr
      refine ih hr ?_
      intro w hw
      rcases List.mem_append.1 hw with hw | hw
      · exact hq w hw
      · obtain ⟨q, hq', rfl⟩ := List.mem_map.1 hw
        exact h.provided_good hc q hq'

theorem addSameName (h : Sub f A l pool pool') {p : Package N S U} (hp : Good l p) (reqs : Reqs N U)
    (qs : List (Package N S U)) (hq : ∀ q ∈ qs, Good l q) : ∀ rules : List (Rule N U),
    Rules.addSameName pool' p reqs qs (rules.map (Rule.ren f)) = (Rules.addSameName pool p reqs qs rules).map (List.map (Rule.ren f)) := by
  induction qs with
  | nil => intro rules; rfl
  | cons q qs ih =>
    intro rules
    rw [Rules.addSameName, Rules.addSameName]
    split
    · refine bindMap (h.conflictRule hp (hq q (by simp)) _ _) (fun rule _ => ?_)
      rw [addRule?_ren]
      exact ih (fun t ht => hq t (by simp [ht])) _
    · exact ih (fun t ht => hq t (by simp [ht])) _

theorem addProviderConflicts (h : Sub f A l pool pool') {p : Package N S U} (hp : Good l p) (reqs : Reqs N U)
    (qs : List (Package N S U)) (hq : ∀ q ∈ qs, Good l q) : ∀ rules : List (Rule N U),
    Rules.addProviderConflicts pool' p reqs qs (rules.map (Rule.ren f)) =
      (Rules.addProviderConflicts pool p reqs qs rules).map (List.map (Rule.ren f)) := by
  induction qs with
  | nil => intro rules; rfl
  | cons q qs ih =>
    intro rules
    rw [Rules.addProviderConflicts, Rules.addProviderConflicts]
    refine bindMap (h.conflictRule hp (hq q (by simp)) _ _) (fun rule _ => ?_)
    rw [addRule?_ren]
    exact ih (fun t ht => hq t (by simp [ht])) _

theorem addDeclared (h : Sub f A l pool pool') (strict : Bool) {p : Package N S U} (hp : Good l p) (reqs : Reqs N U)
    (cs : List (CTuple N S)) (hcs : ∀ t ∈ cs, A t.1) : ∀ rules : List (Rule N U),
    Rules.addDeclared strict pool' p reqs cs (rules.map (Rule.ren f)) =
      (Rules.addDeclared strict pool p reqs cs rules).map (List.map (Rule.ren f)) := by
  induction cs with
  | nil => intro rules; rfl
  | cons c cs ih =>
    intro rules
    rw [Rules.addDeclared, Rules.addDeclared]
    refine bindSame rfl (fun req hreq => ?_)
    have hn : A req.name := by rw [(fromConstraints_name hreq).1]; exact hcs c (by simp)
    refine bindSame (h.whatProvides hn true) (fun cands hc => ?_)
    split
    · exact bindSame rfl (fun _ _ => ih (fun t ht => hcs t (by simp [ht])) _)
    · exact bindMap (h.addProviderConflicts hp _ _ (h.provided_good hc) _) (fun rule _ => ih (fun t ht => hcs t (by simp [ht])) _)

theorem addConflicts (h : Sub f A l pool pool') (strict : Bool) {p : Package N S U} (hp : Good l p) (reqs : Reqs N U)
    (rules : List (Rule N U)) : Rules.addConflicts strict pool' p reqs (rules.map (Rule.ren f)) =
      (Rules.addConflicts strict pool p reqs rules).map (List.map (Rule.ren f)) := by
  unfold Rules.addConflicts
  obtain ⟨h1, h2, h3⟩ := h.good_closed hp
  refine bindSame (h.whatProvides (r := Requirement.ofName .conflict p.name) h1 true) (fun cands hc => ?_)
  refine bindMap (h.addSameName hp _ _ (h.provided_good hc) _) (fun rules _ => ?_)
  exact h.addDeclared strict hp _ _ h3 _

end Sub

theorem nats_inj (f : Ren) {i : Nat} {l : List Nat} : f.nat i ∈ l.map f.nat ↔ i ∈ l := mem_map_inj (fun h => f.nat_inj.1 h)

/-- more turns do not change the result -/
theorem work_more (strict : Bool) (pool : Pool N S U) (k : Nat) : ∀ (n : Nat) (queue : List (Work N S U)) (g : Gen N U),
    work strict pool n queue g ≠ .error .outOfFuel → work strict pool (n + k) queue g = work strict pool n queue g := by
  intro n
  induction n with
  | zero =>
    intro queue g h
    cases queue with
    | nil => cases k <;> simp [work]
    | cons w queue => exact absurd (by simp [work]) h
  | succ n ih =>
    intro queue g h
    cases queue with
    | nil => rw [show n + 1 + k = (n + k) + 1 by omega]; simp [work]
    | cons w queue =>
      obtain ⟨p, reqs⟩ := w
      rw [show n + 1 + k = (n + k) + 1 by omega]
      rw [work] at h ⊢
      rw [work]
      cases hi : pool.packageId p with
      | error e => rfl
      | ok i =>
        simp only [hi, bind, Except.bind] at h ⊢
        split
        · next hm =>
          rw [if_pos hm] at h
          exact ih _ _ h
        · next hm =>
          rw [if_neg hm] at h
          cases hr : addRequires strict pool p reqs p.installRequires g.rules [] with
          | error e => rfl
          | ok r =>
            obtain ⟨rules, more⟩ := r
            simp only [hr] at h ⊢
            cases hc : addConflicts strict pool p reqs rules with
            | error e => rfl
            | ok rules2 =>
              simp only [hc] at h ⊢
              exact ih _ _ h

theorem not_genErr_outOfFuel (strict : Bool) : ¬ GenErr strict .outOfFuel := by
  unfold GenErr InputErr StrictErr
  simp

theorem addPackageRules_fuel {l : List (Package N S U)} (hok : pool.OK l) (strict : Bool) (p : Package N S U) (reqs : Reqs N U)
    (g : Gen N U) (k : Nat) : work strict pool (enoughTurns pool + k) [(p, reqs)] g = addPackageRules strict pool p reqs g := by
  refine work_more strict pool k _ _ _ ?_
  intro h
  exact not_genErr_outOfFuel strict (addPackageRules_err hok h)

namespace Sub

theorem work (h : Sub f A l pool pool') (strict : Bool) (n : Nat) : ∀ (queue : List (Work N S U)) (g : Gen N U),
    (∀ w ∈ queue, Good l w.1) → Rules.work strict pool' n queue (g.ren f) = (Rules.work strict pool n queue g).map (Gen.ren f) := by
  induction n with
  | zero =>
    intro queue g hq
    cases queue with
    | nil => simp [Rules.work, Except.map]
    | cons w queue => simp [Rules.work, Except.map]
  | succ n ih =>
    intro queue g hq
    cases queue with
    | nil => simp [Rules.work, Except.map]
    | cons w queue =>
      obtain ⟨p, reqs⟩ := w
      have hp : Good l p := hq (p, reqs) (by simp)
      have hq' : ∀ w ∈ queue, Good l w.1 := fun w hw => hq w (by simp [hw])
      rw [Rules.work, Rules.work]
      refine bindMap (h.good_id hp) (fun i _ => ?_)
      have e : f.nat i ∈ (g.ren f).added ↔ i ∈ g.added := nats_inj f
      simp only [e]
      split
      · exact ih _ _ hq'
      · refine bindMap (φ := fun r : List (Rule N U) × List (Work N S U) => (r.1.map (Rule.ren f), r.2)) (h.addRequires strict hp reqs _ (h.good_closed hp).2.1 _ _) (fun r hr => ?_)
        obtain ⟨rules, more⟩ := r
        simp only
        refine bindMap (h.addConflicts strict hp reqs _) (fun rules2 _ => ?_)
        have hm := h.addRequires_good hr (by simp)
        have := ih (queue ++ more) ⟨rules2, sadd i g.added⟩ (by
          intro w hw
          rcases List.mem_append.1 hw with hw | hw
          · exact hq' w hw
          · exact hm w hw)
        rw [← this]
        unfold Gen.ren
        simp only
        rw [← sadd_map (fun h => f.nat_inj.1 h)]

theorem addPackageRules (h : Sub f A l pool pool') (strict : Bool) {p : Package N S U} (hp : Good l p) (reqs : Reqs N U)
    (g : Gen N U) : Rules.addPackageRules strict pool' p reqs (g.ren f) = (Rules.addPackageRules strict pool p reqs g).map (Gen.ren f) := by
  obtain ⟨l', ok'⟩ := h.ok'
  rw [← addPackageRules_fuel h.ok strict p reqs g (enoughTurns pool'), ← addPackageRules_fuel ok' strict p reqs _ (enoughTurns pool),
    Nat.add_comm (enoughTurns pool') (enoughTurns pool)]
  exact h.work strict _ _ _ (by simpa using hp)

/-- the installed packages with other numbers -/
def installedRen (f : Ren) (d : Dict Nat (Package N S U)) : Dict Nat (Package N S U) := d.map (fun kv => (f.nat kv.1, kv.2))

theorem installedRen_mem (f : Ren) (d : Dict Nat (Package N S U)) (i : Nat) : f.nat i ∈ dkeys (installedRen f d) ↔ i ∈ dkeys d := by
  unfold dkeys installedRen
  rw [List.map_map]
  have : ((Prod.fst : Nat × Package N S U → Nat) ∘ fun kv : Nat × Package N S U => (f.nat kv.1, kv.2)) = f.nat ∘ Prod.fst := rfl
  rw [this, ← List.map_map]
  exact nats_inj f

theorem addCandidates (h : Sub f A l pool pool') (strict : Bool) (d : Dict Nat (Package N S U)) (r : Requirement N U)
    (ps : List (Package N S U)) (hps : ∀ p ∈ ps, Good l p) : ∀ g : Gen N U,
    Rules.addCandidates strict pool' (installedRen f d) r ps (g.ren f) = (Rules.addCandidates strict pool d r ps g).map (Gen.ren f) := by
  induction ps with
  | nil => intro g; rfl
  | cons p ps ih =>
    intro g
    rw [Rules.addCandidates, Rules.addCandidates]
    refine bindMap (h.good_id (hps p (by simp))) (fun i _ => ?_)
    simp only [installedRen_mem]
    split
    · exact ih (fun p hp => hps p (by simp [hp])) _
    · exact bindMap (h.addPackageRules strict (hps p (by simp)) _ _) (fun g _ => ih (fun p hp => hps p (by simp [hp])) _)

theorem gen_rules (f : Ren) (g : Gen N U) (r : Rule N U) :
    ({ g.ren f with rules := addRule (r.ren f) (g.ren f).rules } : Gen N U) = ({ g with rules := addRule r g.rules } : Gen N U).ren f := by
  unfold Gen.ren
  simp only
  rw [addRule_ren]

theorem addInstallJob (h : Sub f A l pool pool') (strict : Bool) (d : Dict Nat (Package N S U)) {r : Requirement N U} (hr : A r.name)
    (g : Gen N U) :
    Rules.addInstallJob strict pool' (installedRen f d) r (g.ren f) = (Rules.addInstallJob strict pool d r g).map (Gen.ren f) := by
  unfold Rules.addInstallJob
  refine bindSame (h.whatProvides hr false) (fun ps hps => ?_)
  split
  · rfl
  · refine bindMap (h.addCandidates strict d r ps (h.provided_good hps) g) (fun g _ => ?_)
    refine bindMap (h.installOneOfRule ps (h.provided_good hps) _ _) (fun rule _ => ?_)
    rw [gen_rules]
    rfl

theorem addRemovals (h : Sub f A l pool pool') (r : Requirement N U) (ps : List (Package N S U)) (hps : ∀ p ∈ ps, Good l p) :
    ∀ g : Gen N U, Rules.addRemovals pool' r ps (g.ren f) = (Rules.addRemovals pool r ps g).map (Gen.ren f) := by
  induction ps with
  | nil => intro g; rfl
  | cons p ps ih =>
    intro g
    rw [Rules.addRemovals, Rules.addRemovals]
    refine bindMap (h.removeRule (hps p (by simp)) _ _) (fun rule _ => ?_)
    rw [gen_rules]
    exact ih (fun p hp => hps p (by simp [hp])) _

theorem updateKey (h : Sub f A l pool pool') (d : Dict Nat (Package N S U)) {p : Package N S U} (hp : Good l p) :
    Rules.updateKey pool' (installedRen f d) p = Rules.updateKey pool d p := by
  unfold Rules.updateKey
  rw [h.good_id hp]
  cases pool.packageId p with
  | error e => rfl
  | ok i =>
    simp only [Except.map, bind, Except.bind, installedRen_mem]

theorem maxPkg_congr {key key' : Package N S U → Except PErr (Version U × Bool)} (ps : List (Package N S U))
    (h : ∀ p ∈ ps, key' p = key p) : maxPkg key' ps = maxPkg key ps := by
  have aux : ∀ (ps : List (Package N S U)) b, (∀ p ∈ ps, key' p = key p) → maxPkgFrom key' ps b = maxPkgFrom key ps b := by
    intro ps
    induction ps with
    | nil => intro b _; rfl
    | cons q ps ih =>
      intro b hb
      rw [maxPkgFrom, maxPkgFrom, hb q (by simp)]
      congr 1
      funext k
      rw [ih _ (fun p hp => hb p (by simp [hp])), ih _ (fun p hp => hb p (by simp [hp]))]
  cases ps with
  | nil => rfl
  | cons q ps =>
    rw [maxPkg, maxPkg, h q (by simp)]
    congr 1
    funext k
    exact aux _ _ (fun p hp => h p (by simp [hp]))

theorem maxPkg_mem {key : Package N S U → Except PErr (Version U × Bool)} {ps : List (Package N S U)} {p : Package N S U}
    (h : maxPkg key ps = .ok p) : p ∈ ps := by
  have aux : ∀ (ps : List (Package N S U)) b, maxPkgFrom key ps b = .ok p → p = b.1 ∨ p ∈ ps := by
    intro ps
    induction ps with
    | nil =>
      intro b hb
      simp only [maxPkgFrom, Except.ok.injEq] at hb
      exact Or.inl hb.symm
    | cons q ps ih =>
      intro b hb
      rw [maxPkgFrom] at hb
      simp only [bind_ok] at hb
      obtain ⟨k, -, hb⟩ := hb
      split at hb
      · rcases ih _ hb with h1 | h1 <;> simp [h1]
      · rcases ih _ hb with h1 | h1 <;> simp [h1]
  cases ps with
  | nil => simp [maxPkg] at h
  | cons q ps =>
    rw [maxPkg] at h
    simp only [bind_ok] at h
    obtain ⟨k, -, h⟩ := h
    rcases aux _ _ h with h1 | h1 <;> simp [h1]

theorem addUpdateJob (h : Sub f A l pool pool') (strict : Bool) (d : Dict Nat (Package N S U)) {r : Requirement N U} (hr : A r.name)
    (g : Gen N U) :
    Rules.addUpdateJob strict pool' (installedRen f d) r (g.ren f) = (Rules.addUpdateJob strict pool d r g).map (Gen.ren f) := by
  unfold Rules.addUpdateJob
  refine bindSame (h.whatProvides hr false) (fun ps hps => ?_)
  have hg := h.provided_good hps
  split
  · rfl
  · refine bindSame (maxPkg_congr ps (fun p hp => h.updateKey d (hg p hp))) (fun p hp => ?_)
    have hp' := hg p (maxPkg_mem hp)
    refine bindMap (h.addPackageRules strict hp' _ _) (fun g _ => ?_)
    refine bindMap (h.good_id hp') (fun i _ => ?_)
    have e : mkRule [((f.nat i : Nat) : Int)] .jobUpdate (some [r]) = (mkRule [(i : Int)] .jobUpdate (some [r])).ren f := by
      rw [← mkRule_ren]; simp
    rw [e, gen_rules]
    rfl

theorem addJob (h : Sub f A l pool pool') (strict : Bool) (d : Dict Nat (Package N S U)) (j : Job N U)
    (hj : ∀ r, j.requirement = some r → A r.name) (g : Gen N U) :
    Rules.addJob strict pool' (installedRen f d) j (g.ren f) = (Rules.addJob strict pool d j g).map (Gen.ren f) := by
  obtain ⟨r, k⟩ := j
  cases r with
  | none => cases k <;> rfl
  | some r =>
    have hr := hj r rfl
    cases k with
    | install => exact h.addInstallJob strict d hr g
    | softUpdate => exact h.addInstallJob strict d hr g
    | hardUpdate => exact h.addUpdateJob strict d hr g
    | upgrade => rfl
    | remove =>
      refine bindSame (h.whatProvides hr false) (fun ps hps => ?_)
      exact h.addRemovals r ps (h.provided_good hps) g

theorem addJobs (h : Sub f A l pool pool') (strict : Bool) (d : Dict Nat (Package N S U)) (js : List (Job N U))
    (hj : ∀ j ∈ js, ∀ r, j.requirement = some r → A r.name) : ∀ g : Gen N U,
    Rules.addJobs strict pool' (installedRen f d) js (g.ren f) = (Rules.addJobs strict pool d js g).map (Gen.ren f) := by
  induction js with
  | nil => intro g; rfl
  | cons j js ih =>
    intro g
    rw [Rules.addJobs, Rules.addJobs]
    exact bindMap (h.addJob strict d j (hj j (by simp)) g) (fun g _ => ih (fun j hj' => hj j (by simp [hj'])) g)

theorem addOthers (h : Sub f A l pool pool') (strict : Bool) (ps : List (Package N S U)) (hps : ∀ p ∈ ps, Good l p) : ∀ g : Gen N U,
    Rules.addOthers strict pool' ps (g.ren f) = (Rules.addOthers strict pool ps g).map (Gen.ren f) := by
  induction ps with
  | nil => intro g; rfl
  | cons p ps ih =>
    intro g
    rw [Rules.addOthers, Rules.addOthers]
    exact bindMap (h.addPackageRules strict (hps p (by simp)) _ g) (fun g _ => ih (fun p hp => hps p (by simp [hp])) g)

theorem nameToPackages (h : Sub f A l pool pool') {n : N} (hn : A n) : pool'.nameToPackages n = pool.nameToPackages n := by
  unfold Pool.nameToPackages
  rw [h.names n hn]

theorem named_good (h : Sub f A l pool pool') (n : N) : ∀ p ∈ pool.nameToPackages n, Good l p := by
  intro p hp
  unfold Pool.nameToPackages at hp
  rw [h.ok.names.get, mem_providersIn] at hp
  exact ⟨p, hp.1, rfl⟩

theorem addInstalled (h : Sub f A l pool pool') (strict : Bool) (ps : List (Package N S U)) (hps : ∀ p ∈ ps, Good l p) : ∀ g : Gen N U,
    Rules.addInstalled strict pool' ps (g.ren f) = (Rules.addInstalled strict pool ps g).map (Gen.ren f) := by
  induction ps with
  | nil => intro g; rfl
  | cons p ps ih =>
    intro g
    rw [Rules.addInstalled, Rules.addInstalled]
    have hp := hps p (by simp)
    rw [h.nameToPackages (h.good_closed hp).1]
    refine bindMap (h.addOthers strict _ (h.named_good _) g) (fun g _ => ?_)
    exact bindMap (h.addPackageRules strict hp _ g) (fun g _ => ih (fun p hp => hps p (by simp [hp])) g)

/-- the rules are the same up to the numbers of the packages -/
theorem iterRules (h : Sub f A l pool pool') (strict : Bool) (js : List (Job N U))
    (hj : ∀ j ∈ js, ∀ r, j.requirement = some r → A r.name) (d : Dict Nat (Package N S U)) (hd : ∀ kv ∈ d, Good l kv.2) :
    Rules.iterRules strict pool' js (installedRen f d) = (Rules.iterRules strict pool js d).map (Gen.ren f) := by
  unfold Rules.iterRules
  refine bindMap (h.addJobs strict d js hj ⟨[], []⟩) (fun g _ => ?_)
  have e : (installedRen f d).map Prod.snd = d.map Prod.snd := by
    unfold installedRen
    rw [List.map_map]
    rfl
  rw [e]
  refine h.addInstalled strict _ (fun p hp => ?_) g
  obtain ⟨kv, hkv, rfl⟩ := List.mem_map.1 hp
  exact hd kv hkv

end Sub

end Rules

end Verif
