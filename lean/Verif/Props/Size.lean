import Verif.Props.RulesGen
/-
Property C123: how many rules a request has, and how long they are.
-/
set_option linter.unusedSectionVars false
namespace Verif.Props
open Verif Verif.Pkg Verif.Rules

variable {N S U : Type} [LinearOrder N] [DecidableEq S] [LinearOrder U] [Syntax S U]

/-- the number of dependencies that the packages declare, all together -/
def declaredDependencies (avail : List (Package N S U)) : Nat := (avail.map (fun p => p.installRequires.length)).sum

/-- is there a job that removes something -/
def hasRemoval (jobs : List (Job N U)) : Bool := jobs.any (fun j => decide (j.kind = .remove))

/-- the other jobs -/
def otherJobs (jobs : List (Job N U)) : List (Job N U) := jobs.filter (fun j => decide (j.kind ≠ .remove))

/-! ## The clauses there can be -/

theorem candidateIds_congr (pool : Pool N S U) {p q : Package N S U} (h : p.key = q.key) :
    ∀ ds, candidateIds pool p ds = candidateIds pool q ds
  | [] => rfl
  | d :: ds => by
    have : d.same p = d.same q := by
      rw [Bool.eq_iff_iff, same_iff, same_iff, h]
    simp only [candidateIds, this, candidateIds_congr pool h ds]

/-- the clause of one dependency -/
def depClause (pool : Pool N S U) (p : Package N S U) (t : CTuple N S) : List Int :=
  match fromConstraints (U := U) .install t with
  | .error _ => []
  | .ok req => match pool.whatProvides req with
    | .error _ => []
    | .ok cands => match pool.packageId p, candidateIds pool p cands with
      | .ok i, .ok ids => sortBy id (-(i : Int) :: ids)
      | _, _ => []

/-- the clause of a job that is no removal -/
def jobClause (pool : Pool N S U) (installed : Dict Nat (Package N S U)) (j : Job N U) : List Int :=
  match j.requirement with
  | none => []
  | some r => match pool.whatProvides r false with
    | .error _ => []
    | .ok ps =>
      if j.kind = .hardUpdate then
        match maxPkg (updateKey pool installed) ps with
        | .error _ => []
        | .ok p => match pool.packageId p with
          | .error _ => []
          | .ok i => [(i : Int)]
      else match idsOfAll pool ps with
        | .error _ => []
        | .ok ids => sortBy id ids

/-- the clauses that say that two packages are not installed together -/
def pairs : Nat → List (List Int)
  | 0 => []
  | n + 1 => pairs n ++ (List.range n).map (fun i => [-((n + 1 : Nat) : Int), -((i + 1 : Nat) : Int)])

theorem length_pairs : ∀ n, (pairs n).length = n * (n - 1) / 2
  | 0 => rfl
  | n + 1 => by
    rw [pairs, List.length_append, length_pairs n, List.length_map, List.length_range]
    have : (n + 1) * (n + 1 - 1) = n * (n - 1) + n * 2 := by
      cases n with
      | zero => rfl
      | succ m => simp only [Nat.add_sub_cancel]; rw [← Nat.mul_add, Nat.mul_comm]
    rw [this, Nat.add_mul_div_right _ _ (by decide)]

theorem mem_pairs {i j : Nat} (hi : 1 ≤ i) (hij : i < j) : ∀ {n : Nat}, j ≤ n → [-(j : Int), -(i : Int)] ∈ pairs n
  | 0, h => by omega
  | n + 1, h => by
    rw [pairs, List.mem_append]
    rcases Nat.lt_or_ge n j with hn | hn
    · right
      have : j = n + 1 := by omega
      subst this
      refine List.mem_map.2 ⟨i - 1, List.mem_range.2 (by omega), ?_⟩
      rw [Nat.sub_add_cancel hi]
    · exact Or.inl (mem_pairs hi hij hn)

theorem sortBy_pair (a b : Int) : sortBy id [a, b] = if a ≤ b then [a, b] else [b, a] := by
  split
  · next h =>
    exact (sortBy_unique id [a, b] [a, b] (by simpa using h) (by simp)).symm
  · next h =>
    refine ((sortBy_unique id [a, b] [b, a] (by simp; omega) ?_)).symm
    intro k
    simp only [List.filter_cons, List.filter_nil, id]
    by_cases h1 : a = k <;> by_cases h2 : b = k <;> simp [h1, h2]

section
variable {rs : List (Repository N S U)} {mods : Option (Modifiers N)} {pool : Pool N S U} (hb : Built rs mods pool)
  {jobs : List (Job N U)} {installed : Dict Nat (Package N S U)} {strict : Bool} {g : Gen N U}
include hb

/-- every clause is one of those -/
theorem clause_mem (h : iterRules strict pool jobs installed = .ok g) {c : List Int} (hc : c ∈ g.rules.map Rule.literals) :
    c ∈ pairs (allPackages rs).length ++
      (if hasRemoval jobs then (List.range (allPackages rs).length).map (fun i => [-((i + 1 : Nat) : Int)]) else []) ++
      (allPackages rs).flatMap (fun p => p.installRequires.map (depClause pool p)) ++
      (otherJobs jobs).map (jobClause pool installed) := by
  obtain ⟨rule, hr, rfl⟩ := List.mem_map.1 hc
  have hj := (Run.iterRules_good (R := ⟨pool, allPackages rs, jobs, installed⟩) hb.ok h).just rule hr
  clear hc hr
  have dep : ∀ (p : Package N S U) (t : CTuple N S) (req : Requirement N U) (cands : List (Package N S U)) (i : Nat) (ids : List Int),
      t ∈ p.installRequires → fromConstraints .install t = .ok req → pool.whatProvides req = .ok cands → pool.packageId p = .ok i →
      candidateIds pool p cands = .ok ids →
      sortBy id (-(i : Int) :: ids) ∈ (allPackages rs).flatMap (fun p => p.installRequires.map (depClause pool p)) := by
    intro p t req cands i ids ht hreq hc hi hids
    obtain ⟨-, -, q, -, hk, hq, hqi⟩ := hb.ok.ids.packageId_spec hi
    refine List.mem_flatMap.2 ⟨q, hq, List.mem_map.2 ⟨t, by rw [(key_fields hk).2.2.1]; exact ht, ?_⟩⟩
    rw [← candidateIds_congr pool hk] at hids
    simp only [depClause, hreq, hc, hqi, hids]
  have pair : ∀ (p q : Package N S U) (i j : Nat), pool.packageId p = .ok i → pool.packageId q = .ok j → q.key ≠ p.key →
      sortBy id [-(i : Int), -(j : Int)] ∈ pairs (allPackages rs).length := by
    intro p q i j hi hj hne
    have hij : i ≠ j := fun e => hne (hb.ok.ids.packageId_inj hj (by rw [← e]; exact hi))
    obtain ⟨i1, i2, -⟩ := hb.ok.ids.packageId_spec hi
    obtain ⟨j1, j2, -⟩ := hb.ok.ids.packageId_spec hj
    rw [sortBy_pair]
    split
    · exact mem_pairs j1 (by omega) i2
    · exact mem_pairs i1 (by omega) j2
  have job : ∀ j ∈ jobs, j.kind ≠ .remove → ∀ c, jobClause pool installed j = c → c ∈ (otherJobs jobs).map (jobClause pool installed) :=
    fun j hj hk c e => List.mem_map.2 ⟨j, List.mem_filter.2 ⟨hj, decide_eq_true hk⟩, e⟩
  rw [List.mem_append, List.mem_append, List.mem_append]
  cases hj with
  | requires _ ht hreq hc _ hi hids => exact Or.inl (Or.inr (dep _ _ _ _ _ _ ht hreq hc hi hids))
  | broken _ ht hreq hc hi => exact Or.inl (Or.inr (dep _ _ _ _ _ [] ht hreq hc hi rfl))
  | sameName _ _ hne hi hj => exact Or.inl (Or.inl (Or.inl (pair _ _ _ _ hi hj hne)))
  | conflict _ _ _ _ _ hne hi hj => exact Or.inl (Or.inl (Or.inl (pair _ _ _ _ hi hj hne)))
  | @jobInstall j r ps ids hj hk hr hps _ hids =>
    refine Or.inr (job j hj (by rcases hk with hk | hk <;> rw [hk] <;> decide) _ ?_)
    have : j.kind ≠ .hardUpdate := by rcases hk with hk | hk <;> rw [hk] <;> decide
    simp only [jobClause, hr, hps, this, if_false, hids, mkRule]
  | @jobRemove j r ps p i hj hk hr hps hp hi =>
    refine Or.inl (Or.inl (Or.inr ?_))
    have : hasRemoval jobs = true := List.any_eq_true.2 ⟨j, hj, decide_eq_true hk⟩
    rw [if_pos this]
    obtain ⟨i1, i2, -⟩ := hb.ok.ids.packageId_spec hi
    exact List.mem_map.2 ⟨i - 1, List.mem_range.2 (by omega), by rw [Nat.sub_add_cancel i1]; rfl⟩
  | @jobUpdate j r ps p i hj hk hr hps hp hi =>
    refine Or.inr (job j hj (by rw [hk]; decide) _ ?_)
    simp only [jobClause, hr, hps, hk, if_true, hp, hi]
    rfl

/-- C123: a request has at most as many rules as there are pairs of packages, dependencies declared by packages, and jobs that remove
nothing; and, if there is a job that removes something, one more per package. -/
theorem C123_number_of_rules (h : iterRules strict pool jobs installed = .ok g) :
    g.rules.length ≤ (allPackages rs).length * ((allPackages rs).length - 1) / 2 + declaredDependencies (allPackages rs) +
      (otherJobs jobs).length + (if hasRemoval jobs then (allPackages rs).length else 0) := by
  have hs := List.subperm_of_subset (C38_no_repetition hb h) (fun c hc => clause_mem hb h hc)
  have := hs.length_le
  rw [List.length_map, List.length_append, List.length_append, List.length_append, length_pairs, List.length_map, List.length_flatMap] at this
  have e1 : (if hasRemoval jobs then (List.range (allPackages rs).length).map (fun i => [-((i + 1 : Nat) : Int)]) else []).length =
      if hasRemoval jobs then (allPackages rs).length else 0 := by
    split <;> simp
  have e2 : ((allPackages rs).map (fun p => (p.installRequires.map (depClause pool p)).length)).sum = declaredDependencies (allPackages rs) := by
    unfold declaredDependencies
    simp
  rw [e1, e2] at this
  omega

/-- C123: no rule holds anyway -/
theorem C123_no_tautology (h : iterRules strict pool jobs installed = .ok g) (rule : Rule N U) (hr : rule ∈ g.rules) {l : Int}
    (hl : l ∈ rule.literals) : -l ∉ rule.literals := by
  have hj := (Run.iterRules_good (R := ⟨pool, allPackages rs, jobs, installed⟩) hb.ok h).just rule hr
  have pos : ∀ {p : Package N S U} {i : Nat}, pool.packageId p = .ok i → 1 ≤ i := fun hi => (hb.ok.ids.packageId_spec hi).1
  cases hj with
  | requires _ ht hreq hc _ hi hids =>
    simp only [mkRule, mem_sortBy, List.mem_cons, candidateIds_spec hids] at hl ⊢
    have := pos hi
    rcases hl with rfl | ⟨d, hd, hne, j, hj, rfl⟩
    · rintro (e | ⟨d, hd, hne, j, hj, e⟩)
      · omega
      · rw [Int.neg_neg, Int.natCast_inj] at e
        exact hne (hb.ok.ids.packageId_inj hj (by rw [← e]; exact hi))
    · have := pos hj
      rintro (e | ⟨d', hd', hne', j', hj', e⟩)
      · rw [Int.neg_inj, Int.natCast_inj] at e
        exact hne (hb.ok.ids.packageId_inj hj (by rw [e]; exact hi))
      · omega
  | broken _ ht hreq hc hi =>
    have := pos hi
    simp only [mkRule, mem_sortBy, List.mem_singleton] at hl ⊢
    omega
  | sameName _ _ hne hi hj =>
    have := pos hi; have := pos hj
    simp only [mkRule, mem_sortBy, List.mem_cons, List.not_mem_nil, or_false] at hl ⊢
    omega
  | conflict _ _ _ _ _ hne hi hj =>
    have := pos hi; have := pos hj
    simp only [mkRule, mem_sortBy, List.mem_cons, List.not_mem_nil, or_false] at hl ⊢
    omega
  | @jobInstall j r ps ids hj hk hr hps _ hids =>
    simp only [mkRule, mem_sortBy, idsOfAll_spec hids] at hl ⊢
    obtain ⟨d, hd, i, hi, rfl⟩ := hl
    rintro ⟨d', hd', i', hi', e⟩
    have := pos hi; have := pos hi'
    omega
  | @jobRemove j r ps p i hj hk hr hps hp hi =>
    have := pos hi
    simp only [mkRule, mem_sortBy, List.mem_singleton] at hl ⊢
    omega
  | @jobUpdate j r ps p i hj hk hr hps hp hi =>
    have := pos hi
    simp only [mkRule, mem_sortBy, List.mem_singleton] at hl ⊢
    omega

/-- C123: a rule has at most as many different literals as there are packages -/
theorem C123_length_of_rules (h : iterRules strict pool jobs installed = .ok g) (rule : Rule N U) (hr : rule ∈ g.rules)
    {ls : List Int} (hn : ls.Nodup) (hls : ∀ l ∈ ls, l ∈ rule.literals) : ls.length ≤ (allPackages rs).length := by
  have h1 : (ls.map Int.natAbs).Nodup := by
    rw [List.nodup_iff_pairwise_ne, List.pairwise_map]
    refine hn.imp_of_mem ?_
    intro a b ha hb' hne e
    rcases Int.natAbs_eq_natAbs_iff.1 e with e | e
    · exact hne e
    · exact absurd (hls a ha) (by rw [e]; exact C123_no_tautology hb h rule hr (hls b hb'))
  have h2 : ∀ n ∈ ls.map Int.natAbs, n ∈ List.range' 1 (allPackages rs).length := by
    intro n hn
    obtain ⟨l, hl, rfl⟩ := List.mem_map.1 hn
    obtain ⟨-, p, -, hp⟩ := (C38_literals hb h rule hr).2.2 l (hls l hl)
    obtain ⟨i1, i2, -⟩ := hb.ok.ids.packageId_spec hp
    rw [List.mem_range'_1]
    omega
  have := (List.subperm_of_subset h1 h2).length_le
  simpa using this

end

/-! ## Concrete cases -/

namespace SizeExample
open Verif.Pkg.Example RulesExample

def repo : Repository Nat Str Nat := Repository.ofList [pkg 0 1 1 [dep 2], pkg 0 1 2 [dep 3], pkg 0 1 3, pkg 0 2 1 [] [dep 1]]
def pool : Pool Nat Str Nat := (Pool.addRepositories [repo] (Pool.empty none)).1

theorem built : Built [repo] none pool := ⟨none, pool, rfl, rfl⟩

def removeJob (n : Nat) : Job Nat Nat := ⟨some (Requirement.ofName .install n), .remove⟩

/-- the bound is reached: 4 packages, so 6 pairs, 2 dependencies and 1 job -/
example : ∃ g, iterRules false pool [install 1] [] = .ok g ∧ g.rules.length = 9 ∧
    (allPackages [repo]).length * ((allPackages [repo]).length - 1) / 2 + declaredDependencies (allPackages [repo]) +
      (otherJobs [install 1]).length +
      (if hasRemoval [install 1] then (allPackages [repo]).length else 0) = 9 := by
  cases h : iterRules false pool [install 1] [] with
  | error e =>
    have : (match iterRules false pool [install 1] [] with | .ok g => g.rules.length | .error _ => 0) = 9 := by decide +kernel
    rw [h] at this; simp at this
  | ok g =>
    have : (match iterRules false pool [install 1] [] with | .ok g => g.rules.length | .error _ => 0) = 9 := by decide +kernel
    rw [h] at this
    exact ⟨g, rfl, this, by decide +kernel⟩

def repo' : Repository Nat Str Nat := Repository.ofList [pkg 0 1 1, pkg 0 1 2, pkg 0 1 3]
def pool' : Pool Nat Str Nat := (Pool.addRepositories [repo'] (Pool.empty none)).1

/-- also with a removal: 3 pairs, 1 job that removes nothing, 3 packages to remove -/
example : Built [repo'] none pool' ∧ ∃ g, iterRules false pool' [install 1, removeJob 1] [] = .ok g ∧ g.rules.length = 7 ∧
    (allPackages [repo']).length * ((allPackages [repo']).length - 1) / 2 + declaredDependencies (allPackages [repo']) +
      (otherJobs [install 1, removeJob 1]).length +
      (if hasRemoval [install 1, removeJob 1] then (allPackages [repo']).length else 0) = 7 := by
  refine ⟨⟨none, pool', rfl, rfl⟩, ?_⟩
  have h7 : (match iterRules false pool' [install 1, removeJob 1] [] with | .ok g => g.rules.length | .error _ => 0) = 7 := by
    decide +kernel
  cases h : iterRules false pool' [install 1, removeJob 1] [] with
  | error e => rw [h] at h7; simp at h7
  | ok g =>
    rw [h] at h7
    exact ⟨g, rfl, h7, by decide +kernel⟩

end SizeExample

end Verif.Props
