import Verif.Sat.Rename
import Verif.Rules.Rename
import Verif.Solve.Model
/-
`solve` with a pool, and with a larger one with the same packages in the same order for the names that are asked for.
-/
set_option linter.unusedSectionVars false
namespace Verif

theorem mapE_congr {ε α β : Type} {g g' : α → Except ε β} (l : List α) (h : ∀ x ∈ l, g' x = g x) : mapE g' l = mapE g l := by
  induction l with
  | nil => rfl
  | cons x l ih => rw [mapE, mapE, h x (by simp), ih (fun y hy => h y (by simp [hy]))]

theorem mapE_map_ok {ε α β β' : Type} {g : α → Except ε β} {g' : α → Except ε β'} (ψ : β → β') (l : List α)
    (h : ∀ x ∈ l, g' x = (g x).map ψ) : mapE g' l = (mapE g l).map (List.map ψ) := by
  have := mapE_map (g := g) (g' := g') id ψ l h
  rwa [List.map_id] at this

namespace Graph

/-- the end of the sort with other nodes -/
def TopoEnd.ren {α β : Type} (φ : α → β) : TopoEnd α → TopoEnd β
  | .done => .done
  | .cyclic rest => .cyclic (rest.map (fun kv => (φ kv.1, kv.2.map φ)))
  | .outOfFuel => .outOfFuel

section
variable {α β ε : Type} [DecidableEq α] [DecidableEq β] {φ : α → β} (hφ : ∀ {x y : α}, φ x = φ y → x = y)

/-- the graph with other nodes -/
def Adj.ren (φ : α → β) (g : Adj α) : Adj β := g.map (fun kv => (φ kv.1, kv.2.map φ))

include hφ

theorem topoData_ren (g : Adj α) : topoData (Adj.ren φ g) = Adj.ren φ (topoData g) := by
  unfold topoData
  simp only
  have e1 : (Adj.ren φ g).map (fun kv => (kv.1, sdiscard kv.1 kv.2)) = Adj.ren φ (g.map (fun kv => (kv.1, sdiscard kv.1 kv.2))) := by
    unfold Adj.ren
    rw [List.map_map, List.map_map]
    apply List.map_congr_left
    intro kv _
    simp only [Function.comp, sdiscard_map hφ]
  rw [e1]
  generalize g.map (fun kv => (kv.1, sdiscard kv.1 kv.2)) = data
  have e2 : (Adj.ren φ data).flatMap Prod.snd = (data.flatMap Prod.snd).map φ := by
    unfold Adj.ren
    rw [List.flatMap_map, List.map_flatMap]
  have e3 : (Adj.ren φ data).map Prod.fst = (data.map Prod.fst).map φ := by
    unfold Adj.ren
    rw [List.map_map, List.map_map]
    rfl
  rw [e2, e3, fromkeys_map hφ, filter_notin_map hφ]
  unfold Adj.ren
  rw [List.map_append, List.map_map, List.map_map]
  rfl

theorem topoReady_ren (data : Adj α) : topoReady (Adj.ren φ data) = (topoReady data).map φ := by
  unfold topoReady Adj.ren
  rw [List.filter_map, List.map_map, List.map_map]
  have : ((fun kv : β × List β => kv.2.isEmpty) ∘ fun kv : α × List α => (φ kv.1, kv.2.map φ)) = fun kv => kv.2.isEmpty := by
    funext kv
    simp
  rw [this]
  rfl

theorem topoRest_ren (data : Adj α) (l : List α) : topoRest (Adj.ren φ data) (l.map φ) = Adj.ren φ (topoRest data l) := by
  unfold topoRest Adj.ren
  rw [List.filter_map, List.map_map, List.map_map]
  have : ((fun kv : β × List β => decide (kv.1 ∉ l.map φ)) ∘ fun kv : α × List α => (φ kv.1, kv.2.map φ)) =
      fun kv => decide (kv.1 ∉ l) := by
    funext kv
    simp only [Function.comp, mem_map_inj hφ]
  rw [this]
  apply List.map_congr_left
  intro kv _
  simp only [Function.comp, filter_notin_map hφ]

theorem topoLoop_ren (n : Nat) : ∀ data : Adj α,
    topoLoop n (Adj.ren φ data) = ((topoLoop n data).1.map (List.map φ), (topoLoop n data).2.ren φ) := by
  induction n with
  | zero => intro data; rfl
  | succ n ih =>
    intro data
    rw [topoLoop, topoLoop]
    simp only
    rw [topoReady_ren hφ, topoRest_ren hφ, ih]
    by_cases h : topoReady data = []
    · rw [if_pos h, if_pos (by rw [h]; rfl)]
      by_cases hd : data = []
      · subst hd; rfl
      · rw [if_neg hd, if_neg (by unfold Adj.ren; simpa using hd)]; rfl
    · rw [if_neg h, if_neg (by simpa using h)]
      rfl

theorem toposort_ren (g : Adj α) : toposort (Adj.ren φ g) = ((toposort g).1.map (List.map φ), (toposort g).2.ren φ) := by
  unfold toposort
  rw [topoData_ren hφ, topoLoop_ren hφ]
  unfold Adj.ren
  rw [List.length_map]

theorem connectedLoop_ren {pop : PopOrder α} {pop' : PopOrder β} {g : α → Except ε (List α)} {g' : β → Except ε (List β)}
    (hp : ∀ n l, l ≠ [] → pop'.pick n (l.map φ) = φ (pop.pick n l)) (hg : ∀ x, g' (φ x) = (g x).map (List.map φ)) (n : Nat) :
    ∀ queue visited : List α, connectedLoop pop' g' n (queue.map φ) (visited.map φ) =
      (connectedLoop pop g n queue visited).map (Except.map (List.map φ)) := by
  induction n with
  | zero => intro queue visited; rfl
  | succ n ih =>
    intro queue visited
    rw [connectedLoop, connectedLoop]
    by_cases h : queue = []
    · rw [if_pos h, if_pos (by rw [h]; rfl)]; rfl
    · rw [if_neg h, if_neg (by simpa using h)]
      simp only
      rw [hp n queue h, hg]
      cases g (pop.pick n queue) with
      | error e => rfl
      | ok nb =>
        simp only [Except.map]
        rw [sadd_map hφ, sdiscard_map hφ, filter_notin_map hφ, supdate_map hφ]
        exact ih _ _

end

end Graph

namespace Solve
open Verif.Pkg Verif.Graph Verif.Rules

variable {N S U : Type} [LinearOrder N] [DecidableEq S] [LinearOrder U] [Syntax S U]

/-- the same iteration orders of sets, after renaming -/
structure OrdersRel (f : Ren) (o o' : Orders) : Prop where
  policy : ∀ n l, o'.policy n (l.map f.lit) = (o.policy n l).map f.lit
  prefer : ∀ l, o'.prefer (l.map f.nat) = (o.prefer l).map f.nat
  installed : ∀ l, o'.installed (l.map f.nat) = (o.installed l).map f.nat
  roots : ∀ l, o'.roots (l.map f.lit) = (o.roots l).map f.lit
  pop : ∀ n l, l ≠ [] → o'.pop.pick n (l.map f.lit) = f.lit (o.pop.pick n l)

end Solve

namespace Rules.Sub
open Verif.Pkg Verif.Graph Verif.Rules Verif.Solve

variable {N S U : Type} [LinearOrder N] [DecidableEq S] [LinearOrder U] [Syntax S U]
variable {f : Ren} {A : N → Prop} {l : List (Package N S U)} {pool pool' : Pool N S U}

theorem idToPkg (h : Sub f A l pool pool') (i : Nat) : pool'.idToPkg (f.nat i) = pool.idToPkg i := by
  unfold Pool.idToPkg
  rw [h.back]

theorem idToPkg_mem (h : Sub f A l pool pool') {i : Nat} {p : Package N S U} (hp : pool.idToPkg i = .ok p) : p ∈ l :=
  List.mem_of_getElem? ((h.ok.ids.idToPkg_spec i p).1 hp).2

theorem packageId_good (h : Sub f A l pool pool') {p : Package N S U} {i : Nat} (hp : pool.packageId p = .ok i) : Good l p := by
  obtain ⟨-, -, q, -, hk, hm, -⟩ := h.ok.ids.packageId_spec hp
  exact ⟨q, hm, hk⟩

theorem ids_map (h : Sub f A l pool pool') (ps : List (Package N S U)) (hps : ∀ p ∈ ps, A p.name) :
    mapE pool'.packageId ps = (mapE pool.packageId ps).map (List.map f.nat) :=
  mapE_map_ok f.nat ps (fun p hp => h.ids p (hps p hp))

/-! ### before the search -/

theorem jobIds (h : Sub f A l pool pool') (inst : Repository N S U) (js : List (Job N U))
    (hj : ∀ j ∈ js, ∀ r, j.requirement = some r → A r.name) : ∀ (ids : List Nat) (soft : List (Package N S U)),
    Solve.jobIds pool' inst js (ids.map f.nat) soft = (Solve.jobIds pool inst js ids soft).map (fun r => (r.1.map f.nat, r.2)) := by
  induction js with
  | nil => intro ids soft; rfl
  | cons j js ih =>
    intro ids soft
    rw [Solve.jobIds, Solve.jobIds]
    split
    · rfl
    · have hr := hj j (by simp)
      cases hreq : j.requirement with
      | none => rfl
      | some r =>
        simp only
        refine bindSame (h.whatProvides (hr r hreq) false) (fun ps hps => ?_)
        have hg := h.provided_good hps
        split
        · rfl
        · have rest : ∀ kept : List (Package N S U), (∀ p ∈ kept, A p.name) →
              ((do
                  let more ← mapE pool'.packageId kept
                  Solve.jobIds pool' inst js (ids.map f.nat ++ more)
                    (if j.kind = JobKind.softUpdate then soft ++ ps.filter inst.contains else soft)) : Except PErr (List Nat × List (Package N S U))) =
              Except.map (fun r => (r.1.map f.nat, r.2)) (do
                  let more ← mapE pool.packageId kept
                  Solve.jobIds pool inst js (ids ++ more)
                    (if j.kind = JobKind.softUpdate then soft ++ ps.filter inst.contains else soft)) := by
            intro kept hkept
            refine bindMap (h.ids_map kept hkept) (fun more _ => ?_)
            rw [← List.map_append]
            exact ih (fun j hj' => hj j (by simp [hj'])) _ _
          split
          · cases hm : maxPkg (hardKey inst) ps with
            | error e => rfl
            | ok q =>
              refine rest [q] (fun p hp => ?_)
              simp only [List.mem_singleton] at hp
              subst hp
              exact (h.good_closed (hg _ (maxPkg_mem hm))).1
          · exact rest ps (fun p hp => (h.good_closed (hg _ hp)).1)

theorem installedDict (h : Sub f A l pool pool') (ps : List (Package N S U)) (hps : ∀ p ∈ ps, A p.name) :
    ∀ d : Dict Nat (Package N S U),
    Solve.installedDict pool' ps (installedRen f d) = (Solve.installedDict pool ps d).map (installedRen f) := by
  induction ps with
  | nil => intro d; rfl
  | cons p ps ih =>
    intro d
    rw [Solve.installedDict, Solve.installedDict]
    refine bindMap (h.ids p (hps p (by simp))) (fun i _ => ?_)
    have := dset_map (f := f.nat) (fun h => f.nat_inj.1 h) (id : Package N S U → Package N S U) d i p
    unfold installedRen at *
    simp only [id] at this
    rw [this]
    exact ih (fun p hp => hps p (by simp [hp])) _

theorem installedDict_good (h : Sub f A l pool pool') {ps : List (Package N S U)} {d d' : Dict Nat (Package N S U)}
    (hd : Solve.installedDict pool ps d = .ok d') (hg : ∀ kv ∈ d, Good l kv.2) : ∀ kv ∈ d', Good l kv.2 := by
  induction ps generalizing d with
  | nil => simp only [Solve.installedDict, Except.ok.injEq] at hd; subst hd; exact hg
  | cons p ps ih =>
    rw [Solve.installedDict] at hd
    simp only [bind_ok] at hd
    obtain ⟨i, hi, hd⟩ := hd
    refine ih hd ?_
    have hp := h.packageId_good hi
    clear hd ih
    induction d with
    | nil => intro kv hkv; simp only [dset, List.mem_singleton] at hkv; subst hkv; exact hp
    | cons kv d ih =>
      intro kv' hkv
      rw [dset] at hkv
      split at hkv
      · rcases List.mem_cons.1 hkv with rfl | hkv
        · exact hp
        · exact hg kv' (by simp [hkv])
      · rcases List.mem_cons.1 hkv with rfl | hkv
        · exact hg _ (by simp)
        · exact ih (fun kv hkv => hg kv (by simp [hkv])) kv' hkv

theorem preferIds (h : Sub f A l pool pool') {order order' : List Nat → List Nat} (ho : ∀ l, order' (l.map f.nat) = (order l).map f.nat)
    (inst soft : List (Package N S U)) (hi : ∀ p ∈ inst, A p.name) :
    Solve.preferIds pool' order' inst soft = (Solve.preferIds pool order inst soft).map (List.map f.lit) := by
  unfold Solve.preferIds
  refine bindMap (h.ids_map _ (fun p hp => hi p (List.mem_filter.1 hp).1)) (fun ids _ => ?_)
  rw [fromkeys_map (fun h => f.nat_inj.1 h), ho]
  refine bindMap (φ := List.map (fun iv : Nat × Version U => (f.nat iv.1, iv.2))) (mapE_map f.nat (fun iv : Nat × Version U => (f.nat iv.1, iv.2)) _ (fun i _ => ?_)) (fun pairs _ => ?_)
  · simp only [h.idToPkg]
    cases pool.idToPkg i with
    | error e => rfl
    | ok p => rfl
  · rw [sortBy_map (key := Prod.snd) (f := fun iv : Nat × Version U => (f.nat iv.1, iv.2)) (fun x y => Iff.rfl)]
    simp only [Except.map, List.map_map]
    congr 1

/-- what is computed before the search, with other numbers -/
def _root_.Verif.Solve.Setup.ren (f : Ren) (st : Setup N S U) : Setup N S U :=
  { requirementIds := st.requirementIds.map f.nat
    gen := st.gen.ren f
    prefer := st.prefer.map f.lit
    installedDict := installedRen f st.installedDict }

theorem createRules (h : Sub f A l pool pool') {s s' : DependencySolver N S U} (hinst : s'.installed = s.installed)
    (hstrict : s'.strict = s.strict) (hA : ∀ p ∈ s.installed.iter, A p.name) {o o' : Orders} (ho : OrdersRel f o o') (q : Request N U)
    (hj : ∀ j ∈ q.jobs, ∀ r, j.requirement = some r → A r.name) :
    Solve.createRules s' o' pool' q = (Solve.createRules s o pool q).map (Setup.ren f) := by
  unfold Solve.createRules
  rw [hinst, hstrict]
  refine bindMap (φ := fun r : List Nat × List (Package N S U) => (r.1.map f.nat, r.2)) (h.jobIds s.installed q.jobs hj [] []) (fun r _ => ?_)
  obtain ⟨ids, soft⟩ := r
  simp only
  refine bindMap (h.installedDict s.installed.iter hA []) (fun d hd => ?_)
  refine bindMap (h.preferIds ho.prefer s.installed.iter soft hA) (fun prefer _ => ?_)
  refine bindMap (h.iterRules s.strict q.jobs hj d (h.installedDict_good hd (by simp))) (fun gen _ => ?_)
  rfl

/-! ### the search -/

theorem idVersion (h : Sub f A l pool pool') (x : Int) : Solve.idVersion pool' (f.lit x) = Solve.idVersion pool x := by
  unfold Solve.idVersion
  rw [f.lit_natAbs, h.back]
  by_cases hx : 0 < x
  · rw [if_pos hx, if_pos (f.lit_pos.2 hx)]
  · rw [if_neg hx, if_neg (fun k => hx (f.lit_pos.1 k))]

theorem search (h : Sub f A l pool pool') {o o' : Orders} (ho : OrdersRel f o o') (st : Setup N S U) :
    ERel (Sat.ARel f) (Solve.search o pool st) (Solve.search o' pool' (st.ren f)) := by
  unfold Solve.search
  have e1 : (st.ren f).gen.rules.map Rule.literals = (st.gen.rules.map Rule.literals).map (List.map f.lit) := by
    unfold Setup.ren Gen.ren
    simp only [List.map_map]
    rfl
  have e2 : (st.ren f).requirementIds.map (fun (i : Nat) => (i : Int)) = (st.requirementIds.map (fun (i : Nat) => (i : Int))).map f.lit := by
    unfold Setup.ren
    simp only [List.map_map]
    apply List.map_congr_left
    intro i _
    simp
  have e3 : (st.ren f).prefer = st.prefer.map f.lit := rfl
  simp only
  rw [e1, e2, e3]
  generalize st.gen.rules.map Rule.literals = G
  generalize st.requirementIds.map (fun (i : Nat) => (i : Int)) = reqs
  have e4 : searchFuel (G.map (List.map f.lit)) (st.prefer.map f.lit) (reqs.map f.lit) = searchFuel G st.prefer reqs := by
    unfold searchFuel
    congr 1
    simp only [List.length_append, List.length_map]
    congr 1
    unfold Sat.varsOf
    rw [List.flatMap_map]
    simp only [List.length_flatMap, List.length_map]
  rw [e4]
  exact Sat.solveRules_ren (Sat.packagePolicy_ren h.idVersion ho.policy) (Sat.start_ren _ _) _ _

theorem solutionToIds {a a' : ASet} (h : Sat.ARel f a a') : Solve.solutionToIds a' = (Solve.solutionToIds a).map f.lit := by
  unfold Solve.solutionToIds
  rw [h.items, List.map_map, ← sortBy_map (key := iabs) (key' := iabs) (fun x y => by simp [f.lit_le]), List.map_map]
  congr 1
  apply List.map_congr_left
  intro kv _
  simp only [Function.comp]
  split
  · rfl
  · rw [f.lit_neg]

/-! ### pruning -/

theorem getNames (h : Sub f A l pool pool') (x : Int) : Solve.getNames pool' (f.lit x) = Solve.getNames pool x := by
  unfold Solve.getNames
  rw [f.lit_natAbs, h.idToPkg]

theorem nameItems (h : Sub f A l pool pool') (x : Int) :
    Solve.nameItems pool' (f.lit x) = (Solve.nameItems pool x).map (List.map (fun nl => (nl.1, f.lit nl.2))) := by
  unfold Solve.nameItems
  rw [h.getNames]
  cases Solve.getNames pool x with
  | error e => rfl
  | ok ns =>
    simp only [Except.map, f.lit_pos]
    split
    · rw [List.map_map]; rfl
    · rfl

theorem neighborFunc (h : Sub f A l pool pool') (d : Dict N Int) (x : Int) :
    Solve.neighborFunc pool' (d.map (fun nl => (nl.1, f.lit nl.2))) (f.lit x) = (Solve.neighborFunc pool d x).map (List.map f.lit) := by
  unfold Solve.neighborFunc
  simp only [f.lit_natAbs, h.idToPkg, f.lit_pos]
  cases (if 0 < x then pool.idToPkg x.natAbs else Except.error PErr.valueError) with
  | error e => rfl
  | ok p =>
    simp only
    have e : mapE (depNeighbors (S := S) (d.map (fun nl => (nl.1, f.lit nl.2)))) p.installRequires =
        (mapE (depNeighbors d) p.installRequires).map (List.map f.lit) := by
      refine mapE_map_ok f.lit _ (fun t _ => ?_)
      unfold depNeighbors
      have := dget_map (f := (id : N → N)) (fun h => h) f.lit d t.1
      simp only [id] at this
      rw [this]
      cases dget d t.1 <;> rfl
    rw [e]
    cases mapE (depNeighbors d) p.installRequires with
    | error e => rfl
    | ok ls => simp only [Except.map, fromkeys_map f.lit_injective]

theorem includeAll {pop pop' : PopOrder Int} (hp : ∀ n l, l ≠ [] → pop'.pick n (l.map f.lit) = f.lit (pop.pick n l))
    {g g' : Int → Except PErr (List Int)} (hg : ∀ x, g' (f.lit x) = (g x).map (List.map f.lit)) (fuel : Nat) (rs : List Int) :
    ∀ visited : List Int, Solve.includeAll pop' g' fuel (rs.map f.lit) (visited.map f.lit) =
      (Solve.includeAll pop g fuel rs visited).map (List.map f.lit) := by
  induction rs with
  | nil => intro visited; rfl
  | cons r rs ih =>
    intro visited
    rw [List.map_cons, Solve.includeAll, Solve.includeAll]
    have h1 := connectedLoop_ren f.lit_injective hp hg fuel [r] visited
    unfold connectedNodes
    rw [List.map_cons, List.map_nil] at h1
    rw [h1]
    cases connectedLoop pop g fuel [r] visited with
    | none => rfl
    | some x =>
      cases x with
      | error e => rfl
      | ok nodes =>
        simp only [Option.map, Except.map]
        rw [supdate_map f.lit_injective]
        exact ih _

theorem connectedPackages (h : Sub f A l pool pool') {o o' : Orders} (ho : OrdersRel f o o') (sol : List Int) (roots : List Nat) :
    Solve.connectedPackages o' pool' (sol.map f.lit) (roots.map f.nat) = (Solve.connectedPackages o pool sol roots).map (List.map f.lit) := by
  unfold Solve.connectedPackages
  have e1 : mapE (fun (i : Nat) => Solve.getNames pool' (i : Int)) (roots.map f.nat) = mapE (fun (i : Nat) => Solve.getNames pool (i : Int)) roots := by
    rw [mapE_map (g := fun (i : Nat) => Solve.getNames pool (i : Int)) f.nat id roots]
    · cases mapE (fun (i : Nat) => Solve.getNames pool (i : Int)) roots <;> simp [Except.map]
    · intro i _
      rw [← f.lit_natCast, h.getNames]
      cases Solve.getNames pool (i : Int) <;> rfl
  rw [e1]
  cases mapE (fun (i : Nat) => Solve.getNames pool (i : Int)) roots with
  | error e => rfl
  | ok rootNames =>
    simp only
    rw [mapE_map (g := Solve.nameItems pool) f.lit (List.map (fun nl => (nl.1, f.lit nl.2))) sol (fun x _ => h.nameItems x)]
    cases mapE (Solve.nameItems pool) sol with
    | error e => rfl
    | ok items =>
      simp only [Except.map]
      have e2 : dictOf (items.map (List.map (fun nl : N × Int => (nl.1, f.lit nl.2)))).flatten =
          (dictOf items.flatten).map (fun nl => (nl.1, f.lit nl.2)) := by
        rw [← List.map_flatten]
        exact dictOf_map (f := (id : N → N)) (fun h => h) f.lit _
      rw [e2]
      generalize dictOf items.flatten = d
      have e3 : ((d.map (fun nl : N × Int => (nl.1, f.lit nl.2))).filter (fun nl => decide (nl.1 ∈ rootNames.flatten))).map Prod.snd =
          ((d.filter (fun nl => decide (nl.1 ∈ rootNames.flatten))).map Prod.snd).map f.lit := by
        rw [List.filter_map, List.map_map, List.map_map]
        rfl
      rw [e3, fromkeys_map f.lit_injective]
      generalize fromkeys ((d.filter (fun nl => decide (nl.1 ∈ rootNames.flatten))).map Prod.snd) = rts
      rw [ho.roots, List.length_map]
      have e4 := includeAll (f := f) ho.pop (h.neighborFunc d) (sol.length + 2) (o.roots rts) []
      rw [List.map_nil] at e4
      rw [e4]
      cases Solve.includeAll o.pop (Solve.neighborFunc pool d) (sol.length + 2) (o.roots rts) [] with
      | error e => rfl
      | ok included =>
        simp only [Except.map]
        have e5 : (rts.map f.lit).all (fun r => decide (r ∈ included.map f.lit)) = rts.all (fun r => decide (r ∈ included)) := by
          rw [List.all_map]
          congr 1
          funext r
          simp only [Function.comp, mem_map_inj f.lit_injective]
        have e6 : (sol.map f.lit).filter (fun x => decide (x.natAbs ∈ roots.map f.nat)) =
            (sol.filter (fun x => decide (x.natAbs ∈ roots))).map f.lit := by
          rw [List.filter_map]
          congr 1
          apply List.filter_congr
          intro x _
          simp only [Function.comp, f.lit_natAbs, nats_inj]
        rw [e5, e6, supdate_map f.lit_injective]
        split <;> rfl

/-! ### the transaction -/

theorem depLits (h : Sub f A l pool pool') (closed : Bool) (idMap : Dict Nat Int) (ds : List (Package N S U)) (hd : ∀ d ∈ ds, Good l d) :
    Solve.depLits pool' closed (idMap.map (fun kv => (f.nat kv.1, f.lit kv.2))) ds = (Solve.depLits pool closed idMap ds).map (List.map f.lit) := by
  induction ds with
  | nil => rfl
  | cons d ds ih =>
    rw [Solve.depLits, Solve.depLits, h.good_id (hd d (by simp)), ih (fun d hd' => hd d (by simp [hd']))]
    cases pool.packageId d with
    | error e => rfl
    | ok i =>
      simp only [Except.map]
      cases Solve.depLits pool closed idMap ds with
      | error e => rfl
      | ok rest =>
        simp only
        rw [dget_map (fun h => f.nat_inj.1 h) f.lit idMap i]
        cases hg : dget idMap i with
        | none => cases closed <;> simp
        | some x => cases closed <;> simp

theorem depEdges (h : Sub f A l pool pool') (closed : Bool) (idMap : Dict Nat Int) (cs : List (CTuple N S)) (hcs : ∀ t ∈ cs, A t.1) :
    ∀ acc : List Int, Solve.depEdges pool' closed (idMap.map (fun kv => (f.nat kv.1, f.lit kv.2))) cs (acc.map f.lit) =
      (Solve.depEdges pool closed idMap cs acc).map (List.map f.lit) := by
  induction cs with
  | nil => intro acc; rfl
  | cons c cs ih =>
    intro acc
    rw [Solve.depEdges, Solve.depEdges]
    cases hreq : fromConstraints (U := U) .install c with
    | error e => rfl
    | ok req =>
      have hn : A req.name := by rw [(fromConstraints_name hreq).1]; exact hcs c (by simp)
      simp only
      rw [h.whatProvides hn true]
      cases hps : pool.whatProvides req true with
      | error e => rfl
      | ok deps =>
        simp only
        rw [h.depLits closed idMap deps (h.provided_good hps)]
        cases Solve.depLits pool closed idMap deps with
        | error e => rfl
        | ok ls =>
          simp only [Except.map]
          rw [supdate_map f.lit_injective]
          exact ih (fun t ht => hcs t (by simp [ht])) _

theorem packageLitDependencyGraph (h : Sub f A l pool pool') (lits : List Int) (closed : Bool) :
    Solve.packageLitDependencyGraph pool' (lits.map f.lit) closed =
      (Solve.packageLitDependencyGraph pool lits closed).map (Adj.ren f.lit) := by
  unfold Solve.packageLitDependencyGraph
  rw [fromkeys_map f.lit_injective,
    mapE_map (g := litPackage pool) f.lit (fun lp : Int × Package N S U => (f.lit lp.1, lp.2)) (fromkeys lits) (fun x _ => by
      unfold litPackage
      rw [f.lit_natAbs, h.idToPkg]
      cases pool.idToPkg x.natAbs <;> rfl)]
  cases hp : mapE (litPackage pool) (fromkeys lits) with
  | error e => rfl
  | ok packages =>
    simp only [Except.map]
    have e : dictOf ((lits.map f.lit).map (fun x => (x.natAbs, x))) = (dictOf (lits.map (fun x => (x.natAbs, x)))).map (fun kv => (f.nat kv.1, f.lit kv.2)) := by
      rw [← dictOf_map (fun h => f.nat_inj.1 h) f.lit, List.map_map, List.map_map]
      congr 1
      apply List.map_congr_left
      intro x _
      simp only [Function.comp, f.lit_natAbs]
    rw [e]
    generalize dictOf (lits.map (fun x => (x.natAbs, x))) = idMap
    refine mapE_map _ _ packages (fun lp hlp => ?_)
    unfold nodeItem
    obtain ⟨x, -, hx⟩ := (mem_mapE hp lp).1 hlp
    have hm : lp.2 ∈ l := by
      unfold litPackage at hx
      cases hi : pool.idToPkg x.natAbs with
      | error e => rw [hi] at hx; simp at hx
      | ok p =>
        rw [hi] at hx
        simp only [Except.ok.injEq] at hx
        subst hx
        exact h.idToPkg_mem hi
    have h1 := h.depEdges closed idMap lp.2.installRequires (h.closed _ hm).2.1 []
    rw [List.map_nil] at h1
    simp only
    rw [h1]
    cases Solve.depEdges pool closed idMap lp.2.installRequires [] <;> rfl

theorem localPackages (h : Sub f A l pool pool') (inst : List Nat) :
    Solve.localPackages pool' (inst.map f.nat) = (Solve.localPackages pool inst).map (List.map (fun kv => (kv.1, f.nat kv.2))) := by
  unfold Solve.localPackages
  rw [mapE_map (g := keyItem pool) f.nat (fun kv : (N × Version U) × Nat => (kv.1, f.nat kv.2)) inst (fun i _ => by
      unfold keyItem packageKey
      rw [h.idToPkg]
      cases pool.idToPkg i <;> rfl)]
  cases mapE (keyItem pool) inst with
  | error e => rfl
  | ok items =>
    simp only [Except.map]
    congr 1
    exact dictOf_map (f := (id : N × Version U → N × Version U)) (fun h => h) f.nat items

theorem sortOut_ren (dec : List Int) (inst : List Nat) (ls : List Int) : ∀ acc : List Nat × List Nat,
    sortOut (dec.map f.lit) (inst.map f.nat) (ls.map f.lit) (acc.1.map f.nat, acc.2.map f.nat) =
      (sortOut dec inst ls acc).map (fun r => (r.1.map f.nat, r.2.map f.nat)) := by
  induction ls with
  | nil => intro acc; rfl
  | cons x ls ih =>
    rintro ⟨rem, ins⟩
    rw [List.map_cons, sortOut, sortOut]
    simp only [mem_map_inj f.lit_injective, f.lit_natAbs, nats_inj, f.lit_pos, f.lit_neg_iff]
    split
    · rfl
    · split
      · have := ih (rem ++ [x.natAbs], ins)
        simpa using this
      · split
        · have := ih (rem, ins ++ [x.natAbs])
          simpa using this
        · exact ih (rem, ins)

theorem erase_ren (l : List Nat) (i : Nat) : (l.map f.nat).erase (f.nat i) = (l.erase i).map f.nat := by
  induction l with
  | nil => rfl
  | cons x l ih =>
    rw [List.map_cons, List.erase_cons, List.erase_cons]
    by_cases e : x = i
    · simp [e]
    · have : ¬ f.nat x = f.nat i := fun k => e (f.nat_inj.1 k)
      simp [e, this, ih]

theorem installLoop (h : Sub f A l pool pool') (loc : Dict (N × Version U) Nat) (is : List Nat) :
    ∀ (ps : List (Package N S U)) (rem : List Nat),
    Solve.installLoop pool' (loc.map (fun kv => (kv.1, f.nat kv.2))) (is.map f.nat) ps (rem.map f.nat) =
      (Solve.installLoop pool loc is ps rem).map (fun r => (r.1, r.2.map f.nat)) := by
  induction is with
  | nil => intro ps rem; rfl
  | cons i is ih =>
    intro ps rem
    rw [List.map_cons, Solve.installLoop, Solve.installLoop]
    unfold packageKey
    rw [h.idToPkg]
    cases pool.idToPkg i with
    | error e => rfl
    | ok p =>
      simp only
      have e := dget_map (f := (id : N × Version U → N × Version U)) (fun h => h) f.nat loc (p.name, p.version)
      simp only [id] at e
      rw [e]
      have e2 : ((dget loc (p.name, p.version)).map f.nat).getD (f.nat i) = f.nat ((dget loc (p.name, p.version)).getD i) := by
        cases dget loc (p.name, p.version) <;> rfl
      rw [e2]
      by_cases hne : (dget loc (p.name, p.version)).getD i = i
      · rw [if_neg (by simp [hne]), if_neg (by simp [hne])]
        exact ih _ _
      · rw [if_pos hne, if_pos (fun k => hne (f.nat_inj.1 k)), erase_ren]
        exact ih _ _

theorem installLoop_mem (h : Sub f A l pool pool') {loc : Dict (N × Version U) Nat} {is : List Nat}
    {ps ps' : List (Package N S U)} {rem rem' : List Nat} (hi : Solve.installLoop pool loc is ps rem = .ok (ps', rem'))
    (hps : ∀ p ∈ ps, p ∈ l) : ∀ p ∈ ps', p ∈ l := by
  induction is generalizing ps rem with
  | nil =>
    simp only [Solve.installLoop, Except.ok.injEq, Prod.mk.injEq] at hi
    obtain ⟨rfl, -⟩ := hi
    exact hps
  | cons i is ih =>
    rw [Solve.installLoop] at hi
    cases hk : packageKey pool i with
    | error e => rw [hk] at hi; simp at hi
    | ok key =>
      rw [hk] at hi
      simp only at hi
      split at hi
      · exact ih hi hps
      · cases hp : pool.idToPkg i with
        | error e => rw [hp] at hi; simp at hi
        | ok p =>
          rw [hp] at hi
          refine ih hi (fun q hq => ?_)
          rcases List.mem_append.1 hq with hq | hq
          · exact hps q hq
          · simp only [List.mem_singleton] at hq
            subst hq
            exact h.idToPkg_mem hp

theorem safeOperations (h : Sub f A l pool pool') (dec : List Int) (inst : List Nat) (loc : Dict (N × Version U) Nat) :
    Solve.safeOperations pool' (dec.map f.lit) (inst.map f.nat) (loc.map (fun kv => (kv.1, f.nat kv.2))) =
      Solve.safeOperations pool dec inst loc := by
  unfold Solve.safeOperations
  rw [h.packageLitDependencyGraph]
  cases Solve.packageLitDependencyGraph pool dec true with
  | error e => rfl
  | ok graph =>
    simp only [Except.map]
    rw [toposort_ren f.lit_injective]
    cases ht : toposort graph with
    | mk groups e =>
      cases e with
      | cyclic rest => rfl
      | outOfFuel => rfl
      | done =>
        simp only [TopoEnd.ren]
        have e1 : (groups.map (List.map f.lit)).flatMap (fun g => sortBy iabs g) = (groups.flatMap (fun g => sortBy iabs g)).map f.lit := by
          rw [List.flatMap_map, List.map_flatMap]
          congr 1
          funext g
          exact sortBy_map (fun x y => by simp [f.lit_le]) g
        rw [e1]
        have e2 := sortOut_ren (f := f) dec inst (groups.flatMap (fun g => sortBy iabs g)) ([], [])
        simp only [List.map_nil] at e2
        rw [e2]
        cases sortOut dec inst (groups.flatMap (fun g => sortBy iabs g)) ([], []) with
        | error e => rfl
        | ok r =>
          obtain ⟨removals, installs⟩ := r
          simp only [Except.map]
          rw [h.installLoop]
          cases Solve.installLoop pool loc installs [] removals with
          | error e => rfl
          | ok r =>
            obtain ⟨packages, removals⟩ := r
            simp only [Except.map]
            rw [← List.map_reverse, mapE_map (g := pool.idToPkg) f.nat id removals.reverse (fun i _ => by
              rw [h.idToPkg]
              cases pool.idToPkg i <;> rfl)]
            cases mapE pool.idToPkg removals.reverse <;> simp [Except.map]

theorem safeOperations_mem (h : Sub f A l pool pool') {dec : List Int} {inst : List Nat} {loc : Dict (N × Version U) Nat}
    {ops : List (Op N S U)} (hs : Solve.safeOperations pool dec inst loc = .ok ops) : ∀ o ∈ ops, o.package ∈ l := by
  unfold Solve.safeOperations at hs
  cases hg : Solve.packageLitDependencyGraph pool dec true with
  | error e => rw [hg] at hs; simp at hs
  | ok graph =>
    rw [hg] at hs
    simp only at hs
    split at hs
    · simp at hs
    · simp at hs
    · next groups ht =>
      split at hs
      · simp at hs
      · next removals installs _ =>
        split at hs
        · simp at hs
        · next packages removals hi =>
          split at hs
          · simp at hs
          · next removed hr =>
            simp only [Except.ok.injEq] at hs
            subst hs
            intro o ho
            rcases List.mem_append.1 ho with ho | ho
            · obtain ⟨p, hp, rfl⟩ := List.mem_map.1 ho
              obtain ⟨i, -, e⟩ := (mem_mapE hr p).1 hp
              exact h.idToPkg_mem e
            · obtain ⟨p, hp, rfl⟩ := List.mem_map.1 ho
              exact h.installLoop_mem hi (by simp) p hp

theorem absorbAll (h : Sub f A l pool pool') (ks : List (PKey N S U)) (hk : ∀ k ∈ ks, A k.name) :
    ∀ d : Dict (PKey N S U) (List (Op N S U)), Solve.absorbAll pool' ks d = Solve.absorbAll pool ks d := by
  induction ks with
  | nil => intro d; rfl
  | cons k ks ih =>
    intro d
    rw [Solve.absorbAll, Solve.absorbAll]
    have e : findOtherProviders pool' k = findOtherProviders pool k := by
      unfold findOtherProviders
      rw [h.whatProvides (r := Requirement.ofName .install k.name) (hk k (by simp)) true]
    rw [e]
    have ih' := ih (fun k hk' => hk k (by simp [hk']))
    simp only [ih']

theorem mem_dkeys_dictOf {K V : Type} [DecidableEq K] (l : List (K × V)) (k : K) (h : k ∈ dkeys (dictOf l)) : k ∈ l.map Prod.fst := by
  have : ∀ (l : List (K × V)) (d : Dict K V), k ∈ dkeys (l.foldl (fun d kv => dset d kv.1 kv.2) d) → k ∈ dkeys d ∨ k ∈ l.map Prod.fst := by
    intro l
    induction l with
    | nil => intro d h; exact Or.inl h
    | cons kv l ih =>
      intro d h
      rcases ih _ h with h1 | h1
      · rw [dkeys_dset] at h1
        split at h1
        · exact Or.inl h1
        · rcases List.mem_append.1 h1 with h2 | h2
          · exact Or.inl h2
          · simp only [List.mem_singleton] at h2; right; simp [h2]
      · right; simp only [List.map_cons, List.mem_cons]; exact Or.inr h1
  rcases this l [] h with h1 | h1
  · simp [dkeys] at h1
  · exact h1

theorem prettyOperations (h : Sub f A l pool pool') (ops : List (Op N S U)) (ho : ∀ o ∈ ops, o.package ∈ l) :
    Solve.prettyOperations pool' ops = Solve.prettyOperations pool ops := by
  unfold Solve.prettyOperations
  simp only
  rw [h.absorbAll]
  intro k hk
  have := mem_dkeys_dictOf _ _ (List.mem_reverse.1 hk)
  rw [List.map_map] at this
  obtain ⟨o, ho', rfl⟩ := List.mem_map.1 this
  exact (h.closed _ (ho o ho')).1

theorem mkTransaction (h : Sub f A l pool pool') (dec : List Int) (inst : List Nat) :
    Solve.mkTransaction pool' (dec.map f.lit) (inst.map f.nat) = Solve.mkTransaction pool dec inst := by
  unfold Solve.mkTransaction
  rw [h.localPackages]
  cases Solve.localPackages pool inst with
  | error e => rfl
  | ok loc =>
    simp only [Except.map]
    have e := h.safeOperations dec inst loc
    rw [e]
    cases hs : Solve.safeOperations pool dec inst loc with
    | error e => rfl
    | ok ops =>
      simp only
      rw [h.prettyOperations ops (h.safeOperations_mem hs)]

theorem finish (h : Sub f A l pool pool') {s s' : DependencySolver N S U} (hinst : s'.installed = s.installed)
    (hprune : s'.usePruning = s.usePruning) (hA : ∀ p ∈ s.installed.iter, A p.name) {o o' : Orders} (ho : OrdersRel f o o')
    (ids : List Nat) {a a' : ASet} (ha : Sat.ARel f a a') :
    Solve.finish s' o' pool' (ids.map f.nat) a' = Solve.finish s o pool ids a := by
  unfold Solve.finish
  rw [solutionToIds ha, hinst, hprune, h.ids_map _ hA]
  cases mapE pool.packageId s.installed.iter with
  | error e => rfl
  | ok is =>
    simp only [Except.map, bind, Except.bind]
    rw [fromkeys_map (fun h => f.nat_inj.1 h), ho.installed]
    split
    · rw [supdate_map (fun h => f.nat_inj.1 h), h.connectedPackages ho]
      cases Solve.connectedPackages o pool (Solve.solutionToIds a) (supdate ids (o.installed (fromkeys is))) with
      | error e => rfl
      | ok dec => exact h.mkTransaction _ _
    · exact h.mkTransaction _ _

end Rules.Sub

namespace Solve
open Verif.Pkg Verif.Graph Verif.Rules

variable {N S U : Type} [LinearOrder N] [DecidableEq S] [LinearOrder U] [Syntax S U]
variable {f : Ren} {A : N → Prop} {l : List (Package N S U)}

/-- what is left of `solve` once the request is converted -/
def solveIn (s : DependencySolver N S U) (o : Orders) (pool : Pool N S U) (q : Request N U) :
    Except (SErr N U) (Transaction N S U) := do
  let st ← liftP (createRules s o pool q)
  let a ← liftS (search o pool st)
  liftP (finish s o pool st.requirementIds a)

theorem solve_eq_solveIn (s : DependencySolver N S U) (o : Orders) (q : Request N U) :
    s.solve o q = solveIn s o (s.solvePool (convertUpgrade q s.remote s.installed)) (convertUpgrade q s.remote s.installed) := rfl

theorem solveIn_ren {pool pool' : Pool N S U} (h : Sub f A l pool pool') {s s' : DependencySolver N S U}
    (hinst : s'.installed = s.installed) (hstrict : s'.strict = s.strict) (hprune : s'.usePruning = s.usePruning)
    (hA : ∀ p ∈ s.installed.iter, A p.name) {o o' : Orders} (ho : OrdersRel f o o') (q : Request N U)
    (hj : ∀ j ∈ q.jobs, ∀ r, j.requirement = some r → A r.name) : solveIn s' o' pool' q = solveIn s o pool q := by
  unfold solveIn
  rw [h.createRules hinst hstrict hA ho q hj]
  cases createRules s o pool q with
  | error e => rfl
  | ok st =>
    simp only [Except.map, liftP, bind, Except.bind]
    have h1 := h.search ho st
    revert h1
    generalize search o pool st = x
    generalize search o' pool' (st.ren f) = y
    intro h1
    cases h1 with
    | error e => rfl
    | ok ha =>
      simp only [liftS]
      have := h.finish hinst hprune hA ho st.requirementIds ha
      unfold Setup.ren
      simp only
      rw [this]

end Solve
end Verif
