import Verif.Solve.Spec
import Verif.Rules.Valid
import Verif.Props.Graphs
/-
The graph of dependencies between literals, and its topological order.
-/
set_option linter.unusedSectionVars false
namespace Verif.Solve
open Verif Verif.Pkg Verif.Graph Verif.Props Verif.Rules

variable {N S U : Type} [LinearOrder N] [DecidableEq S] [LinearOrder U] [Syntax S U]

theorem depLits_spec {pool : Pool N S U} {idMap : Dict Nat Int} {ds : List (Package N S U)} {closed : Bool} {ls : List Int}
    (h : depLits pool closed idMap ds = .ok ls) (y : Int) :
    y ∈ ls ↔ ∃ d ∈ ds, ∃ i : Nat, pool.packageId d = .ok i ∧
      (dget idMap i = some y ∨ (closed = false ∧ dget idMap i = none ∧ y = i)) := by
  induction ds generalizing ls with
  | nil => simp [depLits] at h; subst h; simp
  | cons d ds ih =>
    simp only [depLits] at h
    cases hi : pool.packageId d with
    | error e => simp [hi] at h
    | ok i =>
      simp only [hi] at h
      cases hr : depLits pool closed idMap ds with
      | error e => simp [hr] at h
      | ok rest =>
        simp only [hr] at h
        have ih := ih hr
        cases hg : dget idMap i with
        | none =>
          cases closed with
          | true =>
            simp [hg] at h; subst h
            rw [ih]; simp [hi, hg]
          | false =>
            simp [hg] at h; subst h
            rw [List.mem_cons, ih]; simp [hi, hg]
        | some z =>
          simp [hg] at h; subst h
          rw [List.mem_cons, ih]
          simp [hi, hg, eq_comm]

theorem depLits_ok {pool : Pool N S U} {idMap : Dict Nat Int} {closed : Bool} {ds : List (Package N S U)}
    (h : ∀ d ∈ ds, ∃ i, pool.packageId d = .ok i) : ∃ ls, depLits pool closed idMap ds = .ok ls := by
  induction ds with
  | nil => exact ⟨[], rfl⟩
  | cons d ds ih =>
    obtain ⟨i, hi⟩ := h d (by simp)
    obtain ⟨rest, hr⟩ := ih (fun d' hd => h d' (by simp [hd]))
    simp only [depLits, hi, hr]
    split <;> exact ⟨_, rfl⟩

/-- an edge for one dependency -/
def DepEdge (pool : Pool N S U) (closed : Bool) (idMap : Dict Nat Int) (t : CTuple N S) (y : Int) : Prop :=
  ∃ req cands, fromConstraints .install t = .ok req ∧ pool.whatProvides req = .ok cands ∧
    ∃ d ∈ cands, ∃ i : Nat, pool.packageId d = .ok i ∧
      (dget idMap i = some y ∨ (closed = false ∧ dget idMap i = none ∧ y = i))

theorem depEdges_spec {pool : Pool N S U} {closed : Bool} {idMap : Dict Nat Int} {cs : List (CTuple N S)}
    {acc ls : List Int} (h : depEdges pool closed idMap cs acc = .ok ls) (y : Int) :
    y ∈ ls ↔ y ∈ acc ∨ ∃ t ∈ cs, DepEdge pool closed idMap t y := by
  induction cs generalizing acc with
  | nil => simp [depEdges] at h; subst h; simp
  | cons c cs ih =>
    simp only [depEdges] at h
    cases hreq : fromConstraints (U := U) .install c with
    | error e => simp [hreq] at h
    | ok req =>
      simp only [hreq] at h
      cases hc : pool.whatProvides req with
      | error e => simp [hc] at h
      | ok cands =>
        simp only [hc] at h
        cases hl : depLits pool closed idMap cands with
        | error e => simp [hl] at h
        | ok l =>
          simp only [hl] at h
          rw [ih h, mem_supdate, depLits_spec hl]
          have : DepEdge pool closed idMap c y ↔ ∃ d ∈ cands, ∃ i : Nat, pool.packageId d = .ok i ∧
              (dget idMap i = some y ∨ (closed = false ∧ dget idMap i = none ∧ y = i)) := by
            unfold DepEdge
            constructor
            · rintro ⟨r', c', h1, h2, h3⟩
              rw [hreq] at h1; cases h1
              rw [hc] at h2; cases h2
              exact h3
            · intro h3
              exact ⟨req, cands, hreq, hc, h3⟩
          rw [← this]
          simp only [List.mem_cons, exists_eq_or_imp]
          tauto

theorem depEdges_ok {pool : Pool N S U} {closed : Bool} {idMap : Dict Nat Int} {cs : List (CTuple N S)} {acc : List Int}
    (h : ∀ t ∈ cs, ∃ (req : Requirement N U) (cands : List (Package N S U)), fromConstraints .install t = .ok req ∧ pool.whatProvides req = .ok cands ∧
      ∀ d ∈ cands, ∃ i, pool.packageId d = .ok i) : ∃ ls, depEdges pool closed idMap cs acc = .ok ls := by
  induction cs generalizing acc with
  | nil => exact ⟨acc, rfl⟩
  | cons c cs ih =>
    obtain ⟨req, cands, h1, h2, h3⟩ := h c (by simp)
    obtain ⟨l, hl⟩ := depLits_ok (closed := closed) (idMap := idMap) h3
    simp only [depEdges, h1, h2, hl]
    exact ih (fun t ht => h t (by simp [ht]))

/-- an installation requirement is never refused by the modifiers -/
theorem whatProvides_install {pool : Pool N S U} {r : Requirement N U} (hc : r.cls = .install) (b : Bool) :
    ∃ ps, pool.whatProvides r b = .ok ps := by
  unfold Pool.whatProvides
  split
  · exact ⟨[], rfl⟩
  · split
    · next e he =>
      exfalso
      cases b with
      | false => simp at he
      | true =>
        simp only [if_true] at he
        unfold Pool.modifyRequirement at he
        split at he
        · unfold Verif.Pkg.modifyRequirement at he
          rw [hc] at he
          simp at he
        · simp at he
    · exact ⟨_, rfl⟩

theorem fromConstraints_cls {cls : ReqClass} {t : CTuple N S} {r : Requirement N U}
    (h : fromConstraints cls t = .ok r) : r.cls = cls := by
  unfold fromConstraints at h
  split at h
  · simp at h
  · split at h
    · simp at h
    · cases h; rfl

/-- the last literal with a given identifier -/
theorem idMap_spec {lits : List Int} (hc : ∀ l ∈ lits, -l ∉ lits) (i : Nat) (y : Int) :
    dget (dictOf (lits.map (fun l => (l.natAbs, l)))) i = some y ↔ y ∈ lits ∧ y.natAbs = i := by
  constructor
  · intro h
    have := dget_dictOf_some h
    obtain ⟨l, hl, e⟩ := List.mem_map.1 this
    simp only [Prod.mk.injEq] at e
    obtain ⟨rfl, rfl⟩ := e
    exact ⟨hl, rfl⟩
  · rintro ⟨hy, rfl⟩
    have : y.natAbs ∈ dkeys (dictOf (lits.map (fun l => (l.natAbs, l)))) := by
      rw [mem_dkeys_dictOf]; exact ⟨y, List.mem_map.2 ⟨y, hy, rfl⟩⟩
    obtain ⟨z, hz⟩ := (mem_dkeys_iff _ _).1 this
    rw [hz]
    have := dget_dictOf_some hz
    obtain ⟨l, hl, e⟩ := List.mem_map.1 this
    simp only [Prod.mk.injEq] at e
    obtain ⟨e, rfl⟩ := e
    by_cases hne : l = y
    · rw [hne]
    · exfalso
      have : -l = y := by omega
      exact hc l hl (this ▸ hy)

section
variable {pool : Pool N S U} {lits : List Int} {closed : Bool} {g : Adj Int}

theorem graph_keys (h : packageLitDependencyGraph pool lits closed = .ok g) : g.map Prod.fst = fromkeys lits := by
  unfold packageLitDependencyGraph at h
  cases hp : mapE (litPackage pool) (fromkeys lits) with
  | error e => simp [hp] at h
  | ok packages =>
    simp only [hp] at h
    have h1 : packages.map Prod.fst = fromkeys lits := by
      revert hp
      generalize fromkeys lits = l
      intro hp
      clear h
      induction l generalizing packages with
      | nil => simp [mapE] at hp; subst hp; rfl
      | cons x l ih =>
        obtain ⟨y, ys, e1, e2, rfl⟩ := mapE_cons_ok.1 hp
        unfold litPackage at e1
        cases hi : pool.idToPkg x.natAbs with
        | error e => simp [hi] at e1
        | ok p => simp [hi] at e1; subst e1; simp [ih _ e2]
    rw [← h1]
    clear h1 hp
    revert h
    generalize dictOf (lits.map (fun l => (l.natAbs, l))) = m
    intro h
    induction packages generalizing g with
    | nil => simp [mapE] at h; subst h; rfl
    | cons x l ih =>
      obtain ⟨y, ys, e1, e2, rfl⟩ := mapE_cons_ok.1 h
      unfold nodeItem at e1
      cases hd : depEdges pool closed m x.2.installRequires [] with
      | error e => simp [hd] at e1
      | ok es => simp [hd] at e1; subst e1; simp [ih e2]

theorem graph_nodup (h : packageLitDependencyGraph pool lits closed = .ok g) : (g.map Prod.fst).Nodup := by
  rw [graph_keys h]; exact nodup_fromkeys _

theorem graph_edge (h : packageLitDependencyGraph pool lits closed = .ok g) (x y : Int) :
    Edge g x y ↔ x ∈ lits ∧ ∃ p, pool.idToPkg x.natAbs = .ok p ∧ ∃ t ∈ p.installRequires,
      DepEdge pool closed (dictOf (lits.map (fun l => (l.natAbs, l)))) t y := by
  unfold packageLitDependencyGraph at h
  cases hp : mapE (litPackage pool) (fromkeys lits) with
  | error e => simp [hp] at h
  | ok packages =>
    simp only [hp] at h
    unfold Edge
    constructor
    · rintro ⟨v, h1, h2⟩
      rw [mem_mapE h] at h1
      obtain ⟨⟨l, p⟩, k1, k2⟩ := h1
      rw [mem_mapE hp] at k1
      obtain ⟨l', k3, k4⟩ := k1
      unfold litPackage at k4
      cases hi : pool.idToPkg l'.natAbs with
      | error e => simp [hi] at k4
      | ok p' =>
        simp [hi] at k4
        obtain ⟨rfl, rfl⟩ := k4
        unfold nodeItem at k2
        split at k2
        · simp at k2
        · next edges hd =>
          simp only [Except.ok.injEq, Prod.mk.injEq] at k2
          obtain ⟨rfl, rfl⟩ := k2
          rw [depEdges_spec hd] at h2
          refine ⟨by simpa using k3, p', hi, ?_⟩
          simpa using h2
    · rintro ⟨hx, p, hi, t, ht, he⟩
      have hmem : (x, p) ∈ packages := by
        rw [mem_mapE hp]
        exact ⟨x, by simpa using hx, by unfold litPackage; rw [hi]⟩
      obtain ⟨⟨z, v⟩, hz, e⟩ := mapE_all h hmem
      unfold nodeItem at e
      split at e
      · simp at e
      · next edges hd =>
        simp only [Except.ok.injEq, Prod.mk.injEq] at e
        obtain ⟨rfl, rfl⟩ := e
        exact ⟨edges, hz, by rw [depEdges_spec hd]; exact Or.inr ⟨t, ht, he⟩⟩

theorem graph_ok (hpk : ∀ l ∈ lits, ∃ p, pool.idToPkg l.natAbs = .ok p ∧ ∀ t ∈ p.installRequires,
      ∃ (req : Requirement N U) (cands : List (Package N S U)), fromConstraints .install t = .ok req ∧ pool.whatProvides req = .ok cands ∧
      ∀ d ∈ cands, ∃ i, pool.packageId d = .ok i) : ∃ g, packageLitDependencyGraph pool lits closed = .ok g := by
  unfold packageLitDependencyGraph
  obtain ⟨packages, hp⟩ := mapE_ok_of (f := litPackage pool) (xs := fromkeys lits) (by
    intro l hl
    obtain ⟨p, hp, -⟩ := hpk l (by simpa using hl)
    exact ⟨(l, p), by unfold litPackage; rw [hp]⟩)
  rw [hp]
  simp only
  apply mapE_ok_of
  intro lp hlp
  rw [mem_mapE hp] at hlp
  obtain ⟨l, hl, e⟩ := hlp
  obtain ⟨p, hi, hd⟩ := hpk l (by simpa using hl)
  unfold litPackage at e
  rw [hi] at e
  cases e
  obtain ⟨es, he⟩ := depEdges_ok (closed := closed) (idMap := dictOf (lits.map (fun l => (l.natAbs, l)))) (acc := []) hd
  exact ⟨(l, es), by unfold nodeItem; simp only [he]⟩

end

section
variable {pool : Pool N S U} {avail : List (Package N S U)} (hok : pool.OK avail) {D : List Int}
  (hD : Decisions pool D) {g : Adj Int}
include hok

theorem IdOf.inj {k k' : PKey N S U} {i : Nat} (h : IdOf pool k i) (h' : IdOf pool k' i) : k = k' := by
  obtain ⟨p, rfl, hp⟩ := h
  obtain ⟨q, rfl, hq⟩ := h'
  exact hok.ids.packageId_inj hp hq

omit hok in
theorem IdOf.fn {k : PKey N S U} {i j : Nat} (h : IdOf pool k i) (h' : IdOf pool k j) : i = j := by
  obtain ⟨p, hk, hp⟩ := h
  obtain ⟨q, hk', hq⟩ := h'
  rw [pool.packageId_congr (hk.trans hk'.symm), hq] at hp
  cases hp; rfl

theorem IdOf.pos {k : PKey N S U} {i : Nat} (h : IdOf pool k i) : 0 < i := by
  obtain ⟨p, rfl, hp⟩ := h
  exact (hok.ids.packageId_spec hp).1

theorem IdOf.get {k : PKey N S U} {i : Nat} (h : IdOf pool k i) :
    ∃ p ∈ avail, p.key = k ∧ pool.idToPkg i = .ok p ∧ pool.packageId p = .ok i := by
  obtain ⟨p, rfl, hp⟩ := h
  obtain ⟨-, -, q, h1, h2, h3, h4⟩ := hok.ids.packageId_spec hp
  exact ⟨q, h3, h2, h1, h4⟩

theorem IdOf.of_avail {p : Package N S U} (h : p ∈ avail) : ∃ i, IdOf pool p.key i := by
  obtain ⟨i, hi⟩ := hok.ids.packageId_ok ⟨p, h, rfl⟩
  exact ⟨i, p, rfl, hi⟩

theorem IdOf.isAvail {k : PKey N S U} {i : Nat} (h : IdOf pool k i) : ∃ p ∈ avail, p.key = k := by
  obtain ⟨p, h1, h2, -⟩ := IdOf.get hok h
  exact ⟨p, h1, h2⟩

include hD

/-- edges between decisions are dependencies between their packages -/
theorem graph_dep (h : packageLitDependencyGraph pool D true = .ok g) {x y : Int} {k k' : PKey N S U}
    (hx : x ∈ D) (hkx : IdOf pool k x.natAbs) (hy : y ∈ D) (hky : IdOf pool k' y.natAbs) :
    Edge g x y ↔ DependsOn avail pool.modifiers k k' := by
  rw [graph_edge h]
  obtain ⟨p, hpa, hpk, hpi, -⟩ := IdOf.get hok hkx
  unfold DependsOn
  constructor
  · rintro ⟨-, p', h1, t, ht, req, cands, h2, h3, d, hd, i, hi, h4⟩
    rw [hpi] at h1; cases h1
    rw [idMap_spec hD.consistent] at h4
    simp only [Bool.true_eq_false, false_and, or_false] at h4
    obtain ⟨-, rfl⟩ := h4
    have hda := ((mem_whatProvides hok h3 d).1 hd)
    refine ⟨t, by rw [← hpk]; exact ht, d, hda.1, IdOf.inj hok ⟨d, rfl, hi⟩ hky, req, h2, hda.2⟩
  · rintro ⟨t, ht, d, hda, hdk, req, h2, h3⟩
    refine ⟨hx, p, hpi, t, by rw [← hpk] at ht; exact ht, req, ?_⟩
    obtain ⟨cands, hc⟩ := whatProvides_install (pool := pool) (fromConstraints_cls h2) true
    refine ⟨cands, h2, hc, d, (mem_whatProvides hok hc d).2 ⟨hda, h3⟩, y.natAbs, ?_, ?_⟩
    · obtain ⟨q, hq, hqi⟩ := hky
      rw [pool.packageId_congr (hdk.trans hq.symm)]; exact hqi
    · rw [idMap_spec hD.consistent]; exact Or.inl ⟨hy, rfl⟩

theorem graph_edge_mem (h : packageLitDependencyGraph pool D true = .ok g) {x y : Int} (he : Edge g x y) :
    x ∈ D ∧ y ∈ D := by
  rw [graph_edge h] at he
  obtain ⟨hx, p', h1, t, ht, req, cands, h2, h3, d, hd, i, hi, h4⟩ := he
  rw [idMap_spec hD.consistent] at h4
  simp only [Bool.true_eq_false, false_and, or_false] at h4
  exact ⟨hx, h4.1⟩

/-- the graph can be computed when the dependencies can be read -/
theorem graph_exists (hp : ∀ l ∈ D, ∀ k, IdOf pool k l.natAbs → ∀ t ∈ k.installRequires,
    ∃ r : Requirement N U, fromConstraints .install t = .ok r) :
    ∃ g, packageLitDependencyGraph pool D true = .ok g := by
  apply graph_ok
  intro l hl
  obtain ⟨k, hk⟩ := hD.known l hl
  obtain ⟨p, hpa, hpk, hpi, -⟩ := IdOf.get hok hk
  refine ⟨p, hpi, fun t ht => ?_⟩
  obtain ⟨r, hr⟩ := hp l hl k hk t (by rw [← hpk]; exact ht)
  obtain ⟨cands, hc⟩ := whatProvides_install (pool := pool) (fromConstraints_cls hr) true
  refine ⟨r, cands, hr, hc, fun d hd => ?_⟩
  exact hok.ids.packageId_ok ⟨d, ((mem_whatProvides hok hc d).1 hd).1, rfl⟩

end

end Verif.Solve
