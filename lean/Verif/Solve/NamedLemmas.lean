import Verif.Solve.Named
import Verif.Rules.NamedLemmas
import Verif.Props.Compute
/-
The solver with readers of names: it is the solver of `Solve/Model.lean` if names and versions are read as they are.
-/
set_option linter.unusedSectionVars false
namespace Verif.Solve
open Verif Verif.Pkg Verif.Graph Verif.Rules Verif.Props

variable {N S U K : Type} [LinearOrder N] [DecidableEq S] [LinearOrder U] [Syntax S U] [LinearOrder K]

/-- the readers read this name, and this name with this version, as they are -/
structure Readers.Plain (read : Readers N U) (n : N) (v : Version U) : Prop where
  conflict : read.conflict.Plain .conflict n
  install : read.install.Plain .install n
  pinned : read.pinned n v = .ok (Requirement.exactly .install n v)
  full : read.full n v = .ok (Requirement.exactly .install n v)

/-! ### operations -/

theorem installLoop_from {pool : Pool N S U} {loc : Dict (N × Version U) Nat} {is : List Nat} {ps qs : List (Package N S U)}
    {rem rem' : List Nat} (h : installLoop pool loc is ps rem = .ok (qs, rem')) :
    ∀ q ∈ qs, q ∈ ps ∨ ∃ i, pool.idToPkg i = .ok q := by
  induction is generalizing ps rem with
  | nil =>
    simp only [installLoop, Except.ok.injEq, Prod.mk.injEq] at h
    obtain ⟨rfl, -⟩ := h
    exact fun q hq => Or.inl hq
  | cons i is ih =>
    unfold installLoop at h
    split at h
    · cases h
    · simp only at h
      split at h
      · exact ih h
      · split at h
        · cases h
        · next p hp =>
          intro q hq
          rcases ih h q hq with k | k
          · rcases List.mem_append.1 k with k | k
            · exact Or.inl k
            · rw [List.mem_singleton] at k
              subst k
              exact Or.inr ⟨_, hp⟩
          · exact Or.inr k

theorem safeOperations_from {pool : Pool N S U} {D : List Int} {installed : List Nat} {loc : Dict (N × Version U) Nat}
    {ops : List (Op N S U)} (h : safeOperations pool D installed loc = .ok ops) :
    ∀ o ∈ ops, ∃ i, pool.idToPkg i = .ok o.package := by
  unfold safeOperations at h
  split at h
  · cases h
  · split at h
    · cases h
    · cases h
    · split at h
      · cases h
      · split at h
        · cases h
        · next packages removals hloop =>
          split at h
          · cases h
          · next removed hrem =>
            cases h
            intro o ho
            rcases List.mem_append.1 ho with ho | ho
            · obtain ⟨p, hp, rfl⟩ := List.mem_map.1 ho
              obtain ⟨i, -, hi⟩ := (mem_mapE hrem p).1 hp
              exact ⟨i, hi⟩
            · obtain ⟨p, hp, rfl⟩ := List.mem_map.1 ho
              rcases installLoop_from hloop p hp with k | k
              · cases k
              · exact k

section
variable {read : Readers N U} {pool : Pool N S U} {l : List (Package N S U)}

theorem findOtherProvidersN_eq {k : PKey N S U} (hk : read.install.Plain .install k.name) :
    findOtherProvidersN read pool k = findOtherProviders pool k := by
  unfold Reader.Plain at hk
  simp only [findOtherProvidersN, findOtherProviders, hk]
  rfl

theorem absorbAllN_eq {ks : List (PKey N S U)} (hk : ∀ k ∈ ks, read.install.Plain .install k.name)
    (d : Dict (PKey N S U) (List (Op N S U))) : absorbAllN read pool ks d = absorbAll pool ks d := by
  induction ks generalizing d with
  | nil => rfl
  | cons k ks ih =>
    simp only [absorbAllN, absorbAll, findOtherProvidersN_eq (hk k (by simp)), ih (fun k h => hk k (by simp [h]))]
    rfl

theorem prettyOperationsN_eq {ops : List (Op N S U)} (ho : ∀ o ∈ ops, read.install.Plain .install o.package.name) :
    prettyOperationsN read pool ops = prettyOperations pool ops := by
  unfold prettyOperationsN prettyOperations
  simp only
  rw [absorbAllN_eq]
  · rfl
  intro k hk
  rw [List.mem_reverse, mem_dkeys_dictOf] at hk
  obtain ⟨v, hv⟩ := hk
  obtain ⟨o, h, e⟩ := List.mem_map.1 hv
  cases e
  exact ho o h

theorem mkTransactionN_eq (hok : pool.OK l) (hl : ∀ q ∈ l, read.install.Plain .install q.name) (D : List Int)
    (installed : List Nat) : mkTransactionN read pool D installed = mkTransaction pool D installed := by
  unfold mkTransactionN mkTransaction
  cases localPackages pool installed with
  | error e => rfl
  | ok loc =>
    simp only
    cases hs : safeOperations pool D installed loc with
    | error e => rfl
    | ok ops =>
      simp only
      rw [prettyOperationsN_eq]
      · rfl
      intro o ho
      obtain ⟨i, hi⟩ := safeOperations_from hs o ho
      rw [hok.ids.idToPkg_spec] at hi
      exact hl _ (List.mem_of_getElem? hi.2)

end

/-! ### solve -/

section
variable {read : Readers N U} {rs : List (Repository N S U)} {s : DependencySolver N S U}

theorem convertUpgradeN_eq (hr : ∀ p ∈ remotePackages s, read.Plain p.name p.version) (q : Request N U) :
    convertUpgradeN read q s.remote s.installed = .ok (convertUpgrade q s.remote s.installed) := by
  unfold convertUpgradeN convertUpgrade
  cases hq : q.jobs with
  | nil => rfl
  | cons j js =>
  cases js with
  | cons j' js => rfl
  | nil =>
    simp only
    split
    · have : ∀ l : List (Package N S U), (∀ p ∈ l, p ∈ remotePackages s) → mapE (pinnedJobs read) l =
          .ok (l.map (fun p => ⟨some (Requirement.exactly .install p.name p.version), .install⟩)) := by
        intro l
        induction l with
        | nil => intro _; rfl
        | cons p l ih =>
          intro h
          simp only [mapE, pinnedJobs, (hr p (h p (by simp))).pinned, ih (fun p hp => h p (by simp [hp])), List.map_cons]
      rw [this]
      intro p hp
      rw [List.mem_filterMap] at hp
      obtain ⟨p0, -, hl⟩ := hp
      have hinv := merged_inv s.remote (Repository.Inv.empty (N := N) (S := S) (U := U))
      rw [List.nil_append] at hinv
      have hm := List.mem_of_getLast? hl
      unfold Repository.findPackages at hm
      rw [hinv.get, (sortBy_perm _ _).mem_iff] at hm
      exact (List.mem_filter.1 hm).1
    · rfl

theorem solvePool_ok (hs : ∃ m, Built rs m s.pool) (q : Request N U) : (s.solvePool q).OK (allPackages rs) := by
  obtain ⟨m, hb⟩ := hs
  exact hb.ok.setModifiers _

theorem createRulesN_eq (hs : ∃ m, Built rs m s.pool) (ha : ∀ p ∈ allPackages rs, read.Plain p.name p.version) (o : Orders)
    (q : Request N U) (q' : Request N U) :
    createRulesN read s o (s.solvePool q') q = createRules s o (s.solvePool q') q := by
  unfold createRulesN createRules
  simp only [iterRulesN_eq (solvePool_ok hs q') (fun p hp => (ha p hp).conflict)]

theorem finishN_eq (hs : ∃ m, Built rs m s.pool) (ha : ∀ p ∈ allPackages rs, read.Plain p.name p.version) (o : Orders)
    (q : Request N U) (ids : List Nat) (a : ASet) :
    finishN read s o (s.solvePool q) ids a = finish s o (s.solvePool q) ids a := by
  unfold finishN finish
  simp only [mkTransactionN_eq (solvePool_ok hs q) (fun p hp => (ha p hp).install)]

/-- `solve` is the one of `Solve/Model.lean`, if names and versions are read as they are. -/
theorem solveN_eq (hs : ∃ m, Built rs m s.pool) (ha : ∀ p ∈ allPackages rs, read.Plain p.name p.version)
    (hr : ∀ p ∈ remotePackages s, read.Plain p.name p.version) (o : Orders) (q : Request N U) :
    s.solveN read o q = s.solve o q := by
  unfold DependencySolver.solveN DependencySolver.solve
  simp only [convertUpgradeN_eq hr, createRulesN_eq hs ha, finishN_eq hs ha]
  rfl

theorem solveWithHintN_eq (hs : ∃ m, Built rs m s.pool) (ha : ∀ p ∈ allPackages rs, read.Plain p.name p.version)
    (hr : ∀ p ∈ remotePackages s, read.Plain p.name p.version) (o : Orders) (o' : List (Job N U) → Orders) (q : Request N U) :
    s.solveWithHintN read o o' q = s.solveWithHint o o' q := by
  have hc : ∀ m, hintCallbackN s read o' m = hintCallback s o' m := by
    intro m
    funext jobs
    simp only [hintCallbackN, hintCallback, solveN_eq hs ha hr]
    rfl
  unfold DependencySolver.solveWithHintN DependencySolver.solveWithHint
  simp only [convertUpgradeN_eq hr, solveN_eq hs ha hr, hc]
  rfl

end

/-! ### the functions -/

section
variable {read : Readers N U} {ps : List (Package N S U)}

theorem requirementsFromPackagesN_eq (h : ∀ p ∈ ps, read.Plain p.name p.version) :
    requirementsFromPackagesN read ps = .ok (requirementsFromPackages ps) := by
  unfold requirementsFromPackagesN requirementsFromPackages
  induction ps with
  | nil => rfl
  | cons p ps ih => simp only [mapE, (h p (by simp)).full, ih (fun p hp => h p (by simp [hp])), List.map_cons]

theorem freshSolver_eq (h : ∀ p ∈ ps, read.Plain p.name p.version) {m : Option (Modifiers N)} {pool : Pool N S U}
    (hp : mkPool [Repository.ofList ps] m = .ok pool) (o : Orders) (q : Request N U) :
    (freshSolver [Repository.ofList ps] pool).solveN read o q = (freshSolver [Repository.ofList ps] pool).solve o q :=
  solveN_eq (rs := [Repository.ofList ps]) (s := freshSolver [Repository.ofList ps] pool) ⟨m, mkPool_built hp⟩ (fun p hp => h p ((mem_all ps p).1 hp))
    (fun p (hp : p ∈ allPackages [Repository.ofList ps]) => h p ((mem_all ps p).1 hp)) o q

theorem requirementsAreSatisfiableN_eq (h : ∀ p ∈ ps, read.Plain p.name p.version) (o : Orders)
    (reqs : List (Requirement N U)) (m : Option (Modifiers N)) :
    requirementsAreSatisfiableN read o ps reqs m = requirementsAreSatisfiable o ps reqs m := by
  unfold requirementsAreSatisfiableN requirementsAreSatisfiable
  simp only
  cases installAll reqs ⟨m.getD Modifiers.empty, []⟩ with
  | error e => rfl
  | ok q =>
    simp only
    cases hp : mkPool [Repository.ofList ps] (some (m.getD Modifiers.empty)) with
    | error e => rfl
    | ok pool =>
      simp only [freshSolver_eq h hp]
      rfl

theorem packagesAreConsistentN_eq (h : ∀ p ∈ ps, read.Plain p.name p.version) (o : Orders) (m : Option (Modifiers N)) :
    packagesAreConsistentN read o ps m = packagesAreConsistent o ps m := by
  unfold packagesAreConsistentN packagesAreConsistent
  rw [requirementsFromPackagesN_eq h]
  exact requirementsAreSatisfiableN_eq h ..

theorem satisfyRequirementsN_eq (h : ∀ p ∈ ps, read.Plain p.name p.version) (o : Orders)
    (reqs : List (Requirement N U)) (m : Option (Modifiers N)) :
    satisfyRequirementsN read o ps reqs m = satisfyRequirements o ps reqs m := by
  unfold satisfyRequirementsN satisfyRequirements
  cases m with
  | none => rfl
  | some m =>
    simp only
    cases installAll reqs ⟨m, []⟩ with
    | error e => rfl
    | ok q =>
      simp only
      cases hp : mkPool [Repository.ofList ps] (some m) with
      | error e => rfl
      | ok pool =>
        simp only [freshSolver_eq h hp]
        rfl

theorem listProviders_from {pool : Pool N S U} {l : List (Package N S U)} (hok : pool.OK l) {reqs : List (Requirement N U)}
    {acc out : List (Package N S U)} (h : listProviders pool reqs acc = .ok out) (ha : ∀ p ∈ acc, p ∈ l) :
    ∀ p ∈ out, p ∈ l := by
  induction reqs generalizing acc with
  | nil => simp only [listProviders, Except.ok.injEq] at h; subst h; exact ha
  | cons r reqs ih =>
    unfold listProviders at h
    split at h
    · cases h
    · next ps hps =>
      refine ih h ?_
      have hmem : ∀ (xs acc : List (Package N S U)), ∀ p ∈ addNew acc xs, p ∈ acc ∨ p ∈ xs := by
        intro xs
        induction xs with
        | nil => intro acc p hp; exact Or.inl hp
        | cons x xs ih =>
          intro acc p hp
          have : addNew acc (x :: xs) = addNew (if acc.any (fun q => x.same q) then acc else acc ++ [x]) xs := rfl
          rw [this] at hp
          rcases ih _ p hp with h | h
          · split at h
            · exact Or.inl h
            · rcases List.mem_append.1 h with h | h
              · exact Or.inl h
              · rw [List.mem_singleton] at h; subst h; exact Or.inr (by simp)
          · exact Or.inr (by simp [h])
      intro p hp
      rcases hmem _ _ p hp with k | k
      · exact ha p k
      · exact provider_mem hok hps p k

theorem packagesFromRequirements_from {rank : List (CTuple N S) → K} {reqs : List (Requirement N U)}
    {m : Option (Modifiers N)} {out : List (Package N S U)} (h : packagesFromRequirements rank ps reqs m = .ok out) :
    ∀ p ∈ out, p ∈ ps := by
  unfold packagesFromRequirements at h
  split at h
  · cases h
  · next pool hpool =>
    split at h
    · cases h
    · next l hl =>
      split at h
      · cases h
        intro p hp
        rw [(sortBy_perm _ _).mem_iff] at hp
        exact (mem_all ps p).1 (listProviders_from (mkPool_built hpool).ok hl (by simp) p hp)
      · cases h

theorem requirementsAreCompleteN_eq (h : ∀ p ∈ ps, read.Plain p.name p.version) (rank : List (CTuple N S) → K) (o : Orders)
    (reqs : List (Requirement N U)) (m : Option (Modifiers N)) :
    requirementsAreCompleteN read rank o ps reqs m = requirementsAreComplete rank o ps reqs m := by
  unfold requirementsAreCompleteN requirementsAreComplete
  cases hp : packagesFromRequirements rank ps reqs m with
  | error e => rfl
  | ok ps' => exact requirementsAreSatisfiableN_eq (fun p hp' => h p (packagesFromRequirements_from hp p hp')) ..

theorem simplifyRequirementsN_eq (h : ∀ p ∈ ps, read.Plain p.name p.version) (rank : List (CTuple N S) → K)
    (reqs : List (Requirement N U)) : simplifyRequirementsN read rank ps reqs = simplifyRequirements rank ps reqs := by
  unfold simplifyRequirementsN simplifyRequirements
  cases hp : packagesFromRequirements rank ps reqs none with
  | error e => rfl
  | ok needed =>
    simp only
    cases mkPool [Repository.ofList ps] none with
    | error e => rfl
    | ok pool =>
      simp only
      cases dependencyCandidates pool (needed.flatMap Package.installRequires) with
      | error e => rfl
      | ok deps =>
        refine requirementsFromPackagesN_eq fun p hp' => h p (packagesFromRequirements_from hp p ?_)
        exact (List.mem_filter.1 hp').1

theorem leafLoopN_eq {pool : Pool N S U} {rev : Adj Int} {ks : List (PKey N S U)}
    (h : ∀ k ∈ ks, read.Plain k.name k.version) (acc : List (PKey N S U)) :
    leafLoopN read pool rev ks acc = leafLoop pool rev ks acc := by
  induction ks generalizing acc with
  | nil => rfl
  | cons k ks ih => simp only [leafLoopN, leafLoop, (h k (by simp)).full, ih (fun k hk => h k (by simp [hk]))]; rfl

theorem computeLeafPackagesN_eq {rs : List (Repository N S U)} (h : ∀ p ∈ allPackages rs, read.Plain p.name p.version)
    (o : SetOrder) : computeLeafPackagesN read o rs = computeLeafPackages o rs := by
  unfold computeLeafPackagesN computeLeafPackages
  cases hp : mkPool rs none with
  | error e => rfl
  | ok pool =>
    simp only
    cases neighborsInRepositories o pool false with
    | error e => rfl
    | ok nb =>
      refine leafLoopN_eq ?_ _
      intro k hk
      have hok := (mkPool_built hp).ok
      have : ∃ p ∈ allPackages rs, p.key = k := by
        rw [mem_dkeys_iff] at hk
        obtain ⟨i, hi⟩ := hk
        rw [hok.ids.pid] at hi
        exact lastId_isSome.1 (by rw [hi]; rfl)
      obtain ⟨p, hp, rfl⟩ := this
      exact h p hp

end

/-! ### names that are refused -/

section
variable {rs : List (Repository N S U)} {s : DependencySolver N S U} {read : Readers N U}

theorem createRulesN_gen {o : Orders} {pool : Pool N S U} {q : Request N U} {st : Setup N S U}
    (h : createRulesN read s o pool q = .ok st) :
    installedDict pool s.installed.iter [] = .ok st.installedDict ∧
    iterRulesN read.conflict s.strict pool q.jobs st.installedDict = .ok st.gen := by
  unfold createRulesN at h
  simp only [bind_ok] at h
  obtain ⟨⟨ids, soft⟩, -, d, hd, prefer, -, gen, hg, h⟩ := h
  cases h
  exact ⟨hd, hg⟩

theorem solveN_error_of_rules {o : Orders} {q : Request N U}
    (h : ∀ q', convertUpgradeN read q s.remote s.installed = .ok q' → ∀ st, createRulesN read s o (s.solvePool q') q' ≠ .ok st) :
    ∃ e, s.solveN read o q = .error (.pkg e) := by
  unfold DependencySolver.solveN
  cases h1 : convertUpgradeN read q s.remote s.installed with
  | error e => exact ⟨e, rfl⟩
  | ok q' =>
    cases h2 : createRulesN read s o (s.solvePool q') q' with
    | error e =>
      refine ⟨e, ?_⟩
      show (do
        let st ← liftP (createRulesN read s o (s.solvePool q') q')
        let a ← liftS (search o (s.solvePool q') st)
        liftP (finishN read s o (s.solvePool q') st.requirementIds a) : Except (SErr N U) _) = _
      rw [h2]
      rfl
    | ok st => exact absurd h2 (h q' h1 st)

theorem convertUpgradeN_other {q : Request N U} {remote : List (Repository N S U)} {installed : Repository N S U}
    (hq : ∀ j ∈ q.jobs, j.kind ≠ .upgrade) : convertUpgradeN read q remote installed = .ok q := by
  unfold convertUpgradeN
  split
  · next j hj => rw [if_neg (hq j (by rw [hj]; simp))]
  · rfl

/-- If the name of an installed package is refused, nothing is solved. -/
theorem solveN_refuses_installed (hs : ∃ m, Built rs m s.pool) {p : Package N S U} (hp : p ∈ s.installed.iter) {e : PErr}
    (hn : read.conflict p.name = .error e) (o : Orders) (q : Request N U) : ∃ e', s.solveN read o q = .error (.pkg e') := by
  refine solveN_error_of_rules fun q' _ st h => ?_
  obtain ⟨h1, h2⟩ := createRulesN_gen h
  have hok := solvePool_ok hs q'
  obtain ⟨kv, hkv, hk⟩ := (installedSet_iff hok h1 p.key).2 ⟨p, hp, rfl⟩
  obtain ⟨r, hr⟩ := (iterRulesN_names hok h2).2.1 kv hkv
  rw [(key_fields hk).1, hn] at hr
  cases hr

/-- Nor is it if the name of a candidate of an install job is refused. -/
theorem solveN_refuses_candidate (hs : ∃ m, Built rs m s.pool) {p : Package N S U} (hp : p ∈ allPackages rs)
    (hi : ∀ p' ∈ s.installed.iter, p'.key ≠ p.key) {e : PErr} (hn : read.conflict p.name = .error e) {r : Requirement N U}
    (hm : MeetsJob r p) {q : Request N U} (hq : ∀ j ∈ q.jobs, j.kind ≠ .upgrade) (hj : ⟨some r, .install⟩ ∈ q.jobs)
    (o : Orders) : ∃ e', s.solveN read o q = .error (.pkg e') := by
  refine solveN_error_of_rules fun q' hq' st h => ?_
  rw [convertUpgradeN_other hq] at hq'
  cases hq'
  obtain ⟨h1, h2⟩ := createRulesN_gen h
  have hok := solvePool_ok hs q
  obtain ⟨ps, hps⟩ := whatProvides_false (s.solvePool q) r
  have hmem : p ∈ ps := (Run.mem_jobProviders (R := ⟨s.solvePool q, allPackages rs, q.jobs, st.installedDict⟩) hok hps p).2 ⟨hp, hm⟩
  obtain ⟨x, hx⟩ := (iterRulesN_names hok h2).2.2 _ hj (Or.inl rfl) r ps rfl hps p hmem (by
    intro i hid hin
    obtain ⟨kv, hkv, rfl⟩ := List.mem_map.1 hin
    obtain ⟨i1, -, -⟩ := installedDict_spec h1 (by intro e he; simp at he)
    have hk := hok.ids.packageId_inj (i1 _ hkv) hid
    obtain ⟨p', hp', e'⟩ := (installedSet_iff hok h1 kv.2.key).1 ⟨kv, hkv, rfl⟩
    exact hi p' hp' (e'.trans hk))
  rw [hn] at hx
  cases hx

end

end Verif.Solve
