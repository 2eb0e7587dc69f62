import Verif.Props.Apart
import Verif.Props.Monotone
/-
Property C138: jobs about unrelated packages do not get in each other's way.
-/
set_option linter.unusedSectionVars false
namespace Verif.Props
open Verif Verif.Pkg Verif.Solve Verif.Rules Verif.Sat

variable {N S U : Type} [LinearOrder N] [DecidableEq S] [LinearOrder U] [Syntax S U]

/-! ### Specification -/

/-- The packages in `E` have nothing to do with the other ones: they share no name with them, and neither do they depend on or conflict
with a name that one of the others provides, nor the other way round. -/
structure Separate (avail : List (Package N S U)) (E : PKey N S U → Prop) : Prop where
  names : ∀ p ∈ avail, ∀ q ∈ avail, ShareName p q → (E p.key ↔ E q.key)
  deps : ∀ p ∈ avail, ∀ t ∈ p.installRequires, ∀ q ∈ avail, Provides q t.1 → (E p.key ↔ E q.key)
  conflicts : ∀ p ∈ avail, ∀ t ∈ p.conflicts, ∀ q ∈ avail, Provides q t.1 → (E p.key ↔ E q.key)

/-- all packages that provide the name of the job's requirement are in `E` -/
def About (avail : List (Package N S U)) (E : PKey N S U → Prop) (j : Job N U) : Prop :=
  ∀ r, j.requirement = some r → ∀ p ∈ avail, Provides p r.name → E p.key

/-- what is in `E` of the one installation, and what is not of the other one -/
def Mix (E I J : PKey N S U → Prop) (k : PKey N S U) : Prop := (I k ∧ E k) ∨ (J k ∧ ¬ E k)

/-! ### Proofs -/

theorem Separate.compl {avail : List (Package N S U)} {E : PKey N S U → Prop} (h : Separate avail E) : Separate avail (fun k => ¬ E k) :=
  ⟨fun p hp q hq hn => not_congr (h.names p hp q hq hn), fun p hp t ht q hq hn => not_congr (h.deps p hp t ht q hq hn),
    fun p hp t ht q hq hn => not_congr (h.conflicts p hp t ht q hq hn)⟩

/-- whether a job is satisfied depends only on the packages that provide its name -/
theorem jobSatisfied_of_about {avail : List (Package N S U)} {installed I J E : PKey N S U → Prop} {j : Job N U} (hj : About avail E j)
    (h : ∀ k, E k → (I k ↔ J k)) {r : Requirement N U} (hr : j.requirement = some r) (hs : JobSatisfied avail installed I j) :
    JobSatisfied avail installed J j := by
  obtain ⟨r', hr', hs⟩ := hs
  rw [hr] at hr'; cases hr'
  have hE : ∀ q ∈ avail, MeetsJob r q → E q.key := fun q hq hm => hj r hr q hq hm.1
  refine ⟨r, hr, ?_⟩
  cases hk : j.kind with
  | install =>
    rw [hk] at hs
    obtain ⟨q, hq, h1, h2⟩ := hs
    exact ⟨q, hq, (h _ (hE q hq h2)).1 h1, h2⟩
  | softUpdate =>
    rw [hk] at hs
    obtain ⟨q, hq, h1, h2⟩ := hs
    exact ⟨q, hq, (h _ (hE q hq h2)).1 h1, h2⟩
  | remove =>
    rw [hk] at hs
    intro q hq hqI hm
    exact hs q hq ((h _ (hE q hq hm)).2 hqI) hm
  | hardUpdate =>
    rw [hk] at hs
    intro q hT
    have hq := hs q hT
    obtain ⟨before, after, e, hm, -⟩ := hT
    exact (h _ (hE q (by rw [e]; simp) hm)).1 hq
  | upgrade => rw [hk] at hs; exact hs

theorem mix_consistent {avail : List (Package N S U)} {mods : Option (Modifiers N)} {E I J : PKey N S U → Prop} (hE : Separate avail E)
    (hI : Consistent avail mods I) (hJ : Consistent avail mods J) : Consistent avail mods (Mix E I J) := by
  have hav : ∀ k, Mix E I J k → ∃ p ∈ avail, p.key = k := by
    rintro k (hk | hk)
    · exact hI.available k hk.1
    · exact hJ.available k hk.1
  refine ⟨hav, ?_, ?_, ?_⟩
  · intro k hk t ht
    obtain ⟨p, hp, rfl⟩ := hav k hk
    rcases hk with hk | hk
    · obtain ⟨d, hd, hdI, hne, hm⟩ := hI.deps p.key hk.1 t ht
      exact ⟨d, hd, Or.inl ⟨hdI, (hE.deps p hp t ht d hd hm.provides).1 hk.2⟩, hne, hm⟩
    · obtain ⟨d, hd, hdI, hne, hm⟩ := hJ.deps p.key hk.1 t ht
      exact ⟨d, hd, Or.inr ⟨hdI, fun he => hk.2 ((hE.deps p hp t ht d hd hm.provides).2 he)⟩, hne, hm⟩
  · intro k k' hk hk' hn
    obtain ⟨p, hp, rfl⟩ := hav k hk
    obtain ⟨p', hp', rfl⟩ := hav k' hk'
    have hE : E p.key ↔ E p'.key := hE.names p hp p' hp' ⟨p.name, Or.inl rfl, Or.inl hn⟩
    rcases hk with hk | hk <;> rcases hk' with hk' | hk'
    · exact hI.names _ _ hk.1 hk'.1 hn
    · exact absurd (hE.1 hk.2) hk'.2
    · exact absurd (hE.2 hk'.2) hk.2
    · exact hJ.names _ _ hk.1 hk'.1 hn
  · intro k hk t ht q hq hqI hne hm
    obtain ⟨p, hp, rfl⟩ := hav k hk
    have hE : E p.key ↔ E q.key := hE.conflicts p hp t ht q hq hm.provides
    rcases hk with hk | hk <;> rcases hqI with hk' | hk'
    · exact hI.conflicts _ hk.1 t ht q hq hk'.1 hne hm
    · exact absurd (hE.1 hk.2) hk'.2
    · exact absurd (hE.2 hk'.2) hk.2
    · exact hJ.conflicts _ hk.1 t ht q hq hk'.1 hne hm

theorem mix_valid {avail : List (Package N S U)} {mods : Option (Modifiers N)} {installed E I J : PKey N S U → Prop} (hE : Separate avail E)
    {A B C : List (Job N U)} (hA : ∀ j ∈ A, About avail E j) (hB : ∀ j ∈ B, About avail (fun k => ¬ E k) j)
    (hC : ∀ j ∈ C, j ∈ A ∨ j ∈ B) (hI : ValidInstall avail mods installed A I) (hJ : ValidInstall avail mods installed B J) :
    ValidInstall avail mods installed C (Mix E I J) := by
  refine ⟨mix_consistent hE hI.consistent hJ.consistent, fun j hj => ?_⟩
  rcases hC j hj with h | h
  · obtain ⟨r, hr, hs⟩ := hI.jobs j h
    exact jobSatisfied_of_about (hA j h) (fun k hk => by simp [Mix, hk]) hr ⟨r, hr, hs⟩
  · obtain ⟨r, hr, hs⟩ := hJ.jobs j h
    exact jobSatisfied_of_about (hB j h) (fun k hk => by simp [Mix, hk]) hr ⟨r, hr, hs⟩

theorem nothing_consistent (avail : List (Package N S U)) (mods : Option (Modifiers N)) : Consistent avail mods (fun _ => False) :=
  ⟨fun _ h => h.elim, fun _ h => h.elim, fun _ _ h => h.elim, fun _ h => h.elim⟩

variable {rs : List (Repository N S U)} {s : DependencySolver N S U}

section
variable {m : Option (Modifiers N)} {jobs : List (Job N U)} {pool : Pool N S U} {st : Setup N S U} {a : ASet}
  {installed : List Nat} {D : List Int} (h : Completed rs s m jobs pool st a installed D)
include h

/-- C84 for what the search has chosen -/
theorem Completed.lex {o : Orders} (hsearch : search o pool st = .ok a) {p : Package N S U} (hp : p ∈ s.installed.iter)
    (hsoft : ¬ ∃ j ∈ jobs, SoftlyUpdated (allPackages rs) (InstalledKeys s) j p.key) {i : Nat} (hi : pool.packageId p = .ok i)
    (hf : a.value i = some false) {I : PKey N S U → Prop} (hI : ValidInstall (allPackages rs) m (InstalledKeys s) jobs I)
    (hkept : ∀ k, InstalledKeys s k → (¬ ∃ j ∈ jobs, SoftlyUpdated (allPackages rs) (InstalledKeys s) j k) → Chosen rs pool st a k →
      k.version ≤ p.version → I k) : ¬ I p.key := by
  obtain ⟨μ, hμ, hμI⟩ := Completed.model h hI
  have hmem : (i : Int) ∈ st.prefer := (h.setup.prefer _).2 ⟨p, hp, hsoft, i, hi, rfl⟩
  obtain ⟨pre, post, hsplit⟩ := List.append_of_mem hmem
  rw [← hμI p i hi]
  refine C57_lexicographic_preference o.policyPerm (h.setup.hids h.built) (h.setup.hnz h.built) hsearch hsplit
    h.setup.preferNodup hf hμ ?_
  intro x hx hxt
  obtain ⟨p', hp', hsoft', i', hi', rfl⟩ := (h.setup.prefer x).1 (by rw [hsplit]; simp [hx])
  refine (hμI p' i' hi').2 (hkept p'.key ⟨p', hp', rfl⟩ hsoft' ?_ ?_)
  · exact (h.chosen_iff hi').2 ⟨h.installed_added ⟨p', hp', rfl⟩ hi', m'_of_true hxt⟩
  · have := h.setup.preferSorted
    rw [hsplit, List.pairwise_append] at this
    exact this.2.2 _ hx _ (by simp) _ _ (Completed.idVersion_eq h hi') (Completed.idVersion_eq h hi)

theorem Completed.false_iff {o : Orders} (hsearch : search o pool st = .ok a) {p : Package N S U} (hp : p ∈ s.installed.iter)
    (hsoft : ¬ ∃ j ∈ jobs, SoftlyUpdated (allPackages rs) (InstalledKeys s) j p.key) {i : Nat} (hi : pool.packageId p = .ok i) :
    a.value i = some false ↔ ¬ Chosen rs pool st a p.key := by
  refine ⟨fun hf => Completed.lex h hsearch hp hsoft hi hf h.chosen_valid (fun _ _ _ hc _ => hc), fun hn => ?_⟩
  by_contra hf
  exact hn ((h.chosen_iff hi).2 ⟨h.installed_added ⟨p, hp, rfl⟩ hi, h.m'_of_not_false hf⟩)

/-- an installed package that is to be kept if possible is there afterwards if the search has chosen it, and only then, if there is no
other package of its name and version -/
theorem Completed.result_iff {o : Orders} (hsearch : search o pool st = .ok a) {t : Transaction N S U}
    (ht : mkTransaction pool D installed = .ok t) {p : Package N S U} (hp : p ∈ s.installed.iter)
    (hsoft : ¬ ∃ j ∈ jobs, SoftlyUpdated (allPackages rs) (InstalledKeys s) j p.key)
    (htwin : ∀ q ∈ allPackages rs, SameNameVersion p.key q.key → q.key = p.key) : Result s t p.key ↔ Chosen rs pool st a p.key := by
  obtain ⟨i, hi⟩ := h.setup.known p hp
  rw [← not_iff_not, ← Completed.false_iff h hsearch hp hsoft hi]
  refine ⟨fun hn => Completed.gone h ht ⟨p, hp, rfl⟩ hn hi, fun hf hR => ?_⟩
  have hD : -(i : Int) ∈ D := by
    refine h.roots ((h.found.neg i).2 hf) (Or.inr ?_)
    rw [Int.natAbs_neg, Int.natAbs_natCast]
    exact (h.inst i).2 ⟨p, hp, hi⟩
  obtain ⟨h1, -⟩ := C45_decisions_realised h.built h.decisions h.hI ht p.key
  rw [h.installed_eq] at h1
  have hw : ¬ Wanted pool D installed p.key := by
    rintro (⟨-, h2⟩ | ⟨i', ⟨p', hk', hi'⟩, h2⟩)
    · exact h2 ⟨i, ⟨p, rfl, hi⟩, hD⟩
    · rw [pool.packageId_congr hk', hi] at hi'
      cases hi'
      exact h.decisions.consistent _ h2 hD
  obtain ⟨-, -, k', ⟨i', ⟨p', rfl, hi'⟩, -⟩, h3, h4⟩ := h1 hR hw
  obtain ⟨q, hq, -, hqi⟩ := h.get ⟨p'.key, p', rfl, hi'⟩
  have e := h.built.ok.ids.packageId_inj hi' hqi
  rw [e] at h4 h3
  exact h3 ⟨p, hp, (htwin q hq h4).symm⟩

/-- C85 for what the search has chosen -/
theorem Completed.lexReq {o : Orders} (hsearch : search o pool st = .ok a) {j : Job N U} (hj : j ∈ jobs)
    {p : Package N S U} (hp : Requested (allPackages rs) (InstalledKeys s) j p) {i : Nat} (hi : pool.packageId p = .ok i)
    (hf : a.value i = some false) {I : PKey N S U → Prop} (hI : ValidInstall (allPackages rs) m (InstalledKeys s) jobs I)
    (hkept : ∀ k, InstalledKeys s k → (¬ ∃ j ∈ jobs, SoftlyUpdated (allPackages rs) (InstalledKeys s) j k) → Chosen rs pool st a k → I k)
    (hnewer : ∀ j' ∈ jobs, j'.kind ≠ .remove → ∀ p', Requested (allPackages rs) (InstalledKeys s) j' p' → Chosen rs pool st a p'.key →
      p.version ≤ p'.version → I p'.key) : ¬ I p.key := by
  obtain ⟨μ, hμ, hμI⟩ := Completed.model h hI
  rw [← hμI p i hi]
  refine C58_newest_requirement o.policyPerm (h.setup.hids h.built) (h.setup.hnz h.built) hsearch (q := (i : Int)) ?_
    h.setup.preferNodup hf hμ ?_ ?_
  · unfold Setup.reqs
    rw [List.mem_map]
    exact ⟨i, (h.setup.reqs i).2 ⟨j, hj, p, hp, hi⟩, rfl⟩
  · intro x hx hxt
    obtain ⟨p', hp', hsoft', i', hi', rfl⟩ := (h.setup.prefer x).1 hx
    exact (hμI p' i' hi').2 (hkept p'.key ⟨p', hp', rfl⟩ hsoft'
      ((h.chosen_iff hi').2 ⟨h.installed_added ⟨p', hp', rfl⟩ hi', m'_of_true hxt⟩))
  · intro x hx vp vq hvp hvq hle hxt
    unfold Setup.reqs at hx
    obtain ⟨i', hi', rfl⟩ := List.mem_map.1 hx
    obtain ⟨j', hj', p', hreq', hpi'⟩ := (h.setup.reqs i').1 hi'
    have hadd := h.requested hj' hreq' hpi'
    have hnr' : j'.kind ≠ .remove := by
      intro e
      rw [if_pos e, hxt] at hadd
      simp at hadd
    rw [if_neg hnr'] at hadd
    rw [Completed.idVersion_eq h hpi'] at hvp
    rw [Completed.idVersion_eq h hi] at hvq
    cases hvp
    cases hvq
    exact (hμI p' i' hpi').2 (hnewer j' hj' hnr' p' hreq' ((h.chosen_iff hpi').2 ⟨hadd, m'_of_true hxt⟩) hle)

/-- a requested package that is not chosen is decided out -/
theorem Completed.req_false {j : Job N U} (hj : j ∈ jobs) (hk : j.kind ≠ .remove) {p : Package N S U}
    (hp : Requested (allPackages rs) (InstalledKeys s) j p) {i : Nat} (hi : pool.packageId p = .ok i)
    (hn : ¬ Chosen rs pool st a p.key) : a.value i = some false := by
  by_contra hf
  have hadd := h.requested hj hp hi
  rw [if_neg hk] at hadd
  exact hn ((h.chosen_iff hi).2 ⟨hadd, h.m'_of_not_false hf⟩)

/-- a requested package is there afterwards if the search has chosen it, and only then, if there is no other package of its name and version -/
theorem Completed.req_result_iff {t : Transaction N S U} (ht : mkTransaction pool D installed = .ok t) {j : Job N U} (hj : j ∈ jobs)
    (hk : j.kind ≠ .remove) {p : Package N S U} (hp : Requested (allPackages rs) (InstalledKeys s) j p)
    (hpa : p ∈ allPackages rs) (htwin : ∀ q ∈ allPackages rs, SameNameVersion p.key q.key → q.key = p.key) :
    Result s t p.key ↔ Chosen rs pool st a p.key := by
  obtain ⟨i, hi⟩ := h.built.ok.ids.packageId_ok ⟨p, hpa, rfl⟩
  constructor
  · intro hR
    by_contra hn
    have hf := Completed.req_false h hj hk hp hi hn
    have hD : -(i : Int) ∈ D := by
      refine h.roots ((h.found.neg i).2 hf) (Or.inl ?_)
      rw [Int.natAbs_neg, Int.natAbs_natCast]
      exact (h.setup.reqs i).2 ⟨j, hj, p, hp, hi⟩
    obtain ⟨h1, -⟩ := C45_decisions_realised h.built h.decisions h.hI ht p.key
    rw [h.installed_eq] at h1
    have hw : ¬ Wanted pool D installed p.key := by
      rintro (⟨-, h2⟩ | ⟨i', ⟨p', hk', hi'⟩, h2⟩)
      · exact h2 ⟨i, ⟨p, rfl, hi⟩, hD⟩
      · rw [pool.packageId_congr hk', hi] at hi'
        cases hi'
        exact h.decisions.consistent _ h2 hD
    obtain ⟨h0, -, k', ⟨i', ⟨p', rfl, hi'⟩, -⟩, h3, h4⟩ := h1 hR hw
    obtain ⟨q, hq, -, hqi⟩ := h.get ⟨p'.key, p', rfl, hi'⟩
    have e := h.built.ok.ids.packageId_inj hi' hqi
    rw [e] at h4 h3
    rw [htwin q hq h4] at h3
    exact h3 h0
  · intro hch
    rcases Completed.result_or_twin h ht (h.requested_decided hj hp hch hk) with hR | ⟨k', hk', hR, hs⟩
    · exact hR
    · obtain ⟨p', hp', rfl⟩ := hk'
      obtain ⟨i', hi'⟩ := h.setup.known p' hp'
      obtain ⟨q, hq, -, hqi⟩ := h.get ⟨p'.key, p', rfl, hi'⟩
      have e := h.built.ok.ids.packageId_inj hi' hqi
      rw [e] at hs hR
      rwa [htwin q hq hs] at hR

end

theorem exists_least {α β : Type} [LinearOrder β] (f : α → β) (P : α → Prop) :
    ∀ l : List α, (∃ x ∈ l, P x) → ∃ x ∈ l, P x ∧ ∀ y ∈ l, P y → f x ≤ f y
  | [], h => by obtain ⟨x, hx, -⟩ := h; cases hx
  | a :: l, h => by
    by_cases hl : ∃ x ∈ l, P x
    · obtain ⟨x, hx, hP, hle⟩ := exists_least f P l hl
      by_cases ha : P a ∧ f a ≤ f x
      · refine ⟨a, by simp, ha.1, fun y hy hPy => ?_⟩
        rcases List.mem_cons.1 hy with rfl | hy
        · exact le_refl _
        · exact le_trans ha.2 (hle y hy hPy)
      · refine ⟨x, by simp [hx], hP, fun y hy hPy => ?_⟩
        rcases List.mem_cons.1 hy with rfl | hy
        · exact le_of_lt (not_le.1 (fun h => ha ⟨hPy, h⟩))
        · exact hle y hy hPy
    · obtain ⟨x, hx, hP⟩ := h
      rcases List.mem_cons.1 hx with rfl | hx
      · refine ⟨x, by simp, hP, fun y hy hPy => ?_⟩
        rcases List.mem_cons.1 hy with rfl | hy
        · exact le_refl _
        · exact absurd ⟨y, hy, hPy⟩ hl
      · exact absurd ⟨x, hx, hP⟩ hl

/-! ### C138 -/

/-- C138: the packages of `E` in a valid installation, alone, are a valid installation for the jobs about them. -/
theorem C138_part {q : Request N U} {I : PKey N S U → Prop} (hI : Solves rs s q I) {E : PKey N S U → Prop}
    (hE : Separate (allPackages rs) E) {A : List (Job N U)} (hA : ∀ j ∈ A, j ∈ effectiveJobs s q ∧ About (allPackages rs) E j) :
    ValidInstall (allPackages rs) (some q.modifiers) (InstalledKeys s) A (fun k => I k ∧ E k) := by
  have e : (fun k => I k ∧ E k) = Mix E I (fun _ => False) := by funext k; simp [Mix]
  rw [e]
  exact mix_valid hE (A := A) (B := []) (fun j hj => (hA j hj).2) (by simp) (fun j hj => Or.inl hj)
    ⟨hI.consistent, fun j hj => hI.jobs j (hA j hj).1⟩ ⟨nothing_consistent _ _, by simp⟩

/-- C138: if two requests, one about packages of `E`, one about others, can be solved, then a request with jobs of both of them is not
unsatisfiable. -/
theorem C138_together (hs : SolverFor rs s) {E : PKey N S U → Prop} (hE : Separate (allPackages rs) E) {o o1 o2 : Orders}
    {q q1 q2 : Request N U} (h1 : q1.modifiers = q.modifiers) (h2 : q2.modifiers = q.modifiers)
    (hA : ∀ j ∈ effectiveJobs s q1, About (allPackages rs) E j) (hB : ∀ j ∈ effectiveJobs s q2, About (allPackages rs) (fun k => ¬ E k) j)
    (hC : ∀ j ∈ effectiveJobs s q, j ∈ effectiveJobs s q1 ∨ j ∈ effectiveJobs s q2) {t1 t2 : Transaction N S U}
    (ht1 : s.solve o1 q1 = .ok t1) (ht2 : s.solve o2 q2 = .ok t2) (u : Sat.UnsatInfo) :
    s.solve o q ≠ .error (.sat (.satisfiability u)) := by
  intro hu
  have h := C40_decides hs o q
  rw [hu] at h
  obtain ⟨I, hI⟩ := solvable_of_ok hs ht1
  obtain ⟨J, hJ⟩ := solvable_of_ok hs ht2
  unfold Solves at *
  rw [h1] at hI
  rw [h2] at hJ
  exact h ⟨_, mix_valid hE hA hB hC hI hJ⟩

/-- C138: on well-formed input a request whose jobs are about packages of `E`, or about others, is unsatisfiable exactly if the former
jobs are, or the latter ones. -/
theorem C138_unsatisfiable_iff (hs : SolverFor rs s) {E : PKey N S U → Prop} (hE : Separate (allPackages rs) E) (o o1 o2 : Orders)
    {m : Modifiers N} {A B : List (Job N U)} (hw : WellFormed rs s ⟨m, A ++ B⟩)
    (hj : ∀ j ∈ A ++ B, JobPossible (allPackages rs) j)
    (hA : ∀ j ∈ A, About (allPackages rs) E j) (hB : ∀ j ∈ B, About (allPackages rs) (fun k => ¬ E k) j) :
    (∃ u, s.solve o ⟨m, A ++ B⟩ = .error (.sat (.satisfiability u))) ↔
      (∃ u, s.solve o1 ⟨m, A⟩ = .error (.sat (.satisfiability u))) ∨ (∃ u, s.solve o2 ⟨m, B⟩ = .error (.sat (.satisfiability u))) := by
  have e : ∀ l : List (Job N U), (∀ j ∈ l, j ∈ A ++ B) → effectiveJobs s ⟨m, l⟩ = l :=
    fun l hl => effectiveJobs_plain s (fun j hjl => (hj j (hl j hjl)).1)
  have w : ∀ l : List (Job N U), (∀ j ∈ l, j ∈ A ++ B) → WellFormed rs s ⟨m, l⟩ := by
    intro l hl
    refine ⟨hw.readable, hw.installed, hw.lenient, ?_⟩
    rw [e l hl]
    intro j hjl
    have := hw.jobs j
    rw [e _ (fun j h => h)] at this
    exact this (hl j hjl)
  have d : ∀ (l : List (Job N U)) (o : Orders), (∀ j ∈ l, j ∈ A ++ B) →
      ((∃ u, s.solve o ⟨m, l⟩ = .error (.sat (.satisfiability u))) ↔ ¬ CanSatisfy rs s m l) := by
    intro l o hl
    rw [C61_unsatisfiable_iff hs o (w l hl) (by rw [e l hl]; exact fun j h => hj j (hl j h))]
    unfold Solves CanSatisfy
    rw [e l hl]
  have hlA : ∀ j ∈ A, j ∈ A ++ B := fun j h => List.mem_append_left _ h
  have hlB : ∀ j ∈ B, j ∈ A ++ B := fun j h => List.mem_append_right _ h
  rw [d _ o (fun j h => h), d A o1 hlA, d B o2 hlB, ← not_and_or]
  refine not_congr ⟨fun h => ⟨h.mono hlA, h.mono hlB⟩, ?_⟩
  rintro ⟨⟨I, hI⟩, ⟨J, hJ⟩⟩
  exact ⟨_, mix_valid hE hA hB (fun j h => List.mem_append.1 h) hI hJ⟩

/-- C138: if every job is about packages of `E` or about others, then the jobs named by SatisfiabilityErrorWithHint are all about packages
of `E`, or all about others: a hint does not mix jobs that have nothing to do with each other. -/
theorem C138_hint (hs : SolverFor rs s) {E : PKey N S U → Prop} (hE : Separate (allPackages rs) E) {o : Orders}
    {o' : List (Job N U) → Orders} {q : Request N U} {u : Sat.UnsatInfo} {jobs : List (Job N U)}
    (h : s.solveWithHint o o' q = .error (.hint u jobs))
    (hj : ∀ j ∈ effectiveJobs s q, About (allPackages rs) E j ∨ About (allPackages rs) (fun k => ¬ E k) j) :
    (∀ j ∈ jobs, About (allPackages rs) E j) ∨ ∀ j ∈ jobs, About (allPackages rs) (fun k => ¬ E k) j := by
  classical
  obtain ⟨hsub, hno, hmin⟩ := C50_hint_is_minimal hs h
  by_contra hcon
  rw [not_or] at hcon
  have h1 : ∃ j ∈ jobs, ¬ About (allPackages rs) E j := by
    by_contra hn
    exact hcon.1 (fun j hj => by by_contra ha; exact hn ⟨j, hj, ha⟩)
  have h2 : ∃ j ∈ jobs, ¬ About (allPackages rs) (fun k => ¬ E k) j := by
    by_contra hn
    exact hcon.2 (fun j hj => by by_contra ha; exact hn ⟨j, hj, ha⟩)
  have hlt : ∀ P : Job N U → Prop, (∃ j ∈ jobs, ¬ P j) → CanSatisfy rs s q.modifiers (jobs.filter (fun j => P j)) := by
    rintro P ⟨j, hj, hP⟩
    refine hmin _ List.filter_sublist.subperm ?_
    refine lt_of_le_of_ne (List.length_filter_le _ _) (fun he => hP ?_)
    have := List.length_filter_eq_length_iff.1 he j hj
    simpa using this
  obtain ⟨I, hI⟩ := hlt _ h1
  obtain ⟨J, hJ⟩ := hlt _ h2
  refine hno ⟨_, mix_valid hE (fun j hj => ?_) (fun j hj => ?_) (fun j hjm => ?_) hI hJ⟩
  · have := (List.mem_filter.1 hj).2
    simpa using this
  · have := (List.mem_filter.1 hj).2
    simpa using this
  · rcases hj j (hsub.subset hjm) with h | h
    · exact Or.inl (List.mem_filter.2 ⟨hjm, by simpa using h⟩)
    · exact Or.inr (List.mem_filter.2 ⟨hjm, by simpa using h⟩)

section
variable {m : Option (Modifiers N)} {jobs jobs1 : List (Job N U)} {pool pool1 : Pool N S U} {st st1 : Setup N S U} {a a1 : ASet}
  {installed installed1 : List Nat} {D D1 : List Int} (hc : Completed rs s m jobs pool st a installed D)
  (hc1 : Completed rs s m jobs1 pool1 st1 a1 installed1 D1) {o o1 : Orders} (hsearch : search o pool st = .ok a)
  (hsearch1 : search o1 pool1 st1 = .ok a1) {E : PKey N S U → Prop} (hE : Separate (allPackages rs) E)
  (hA : ∀ j ∈ jobs1, j ∈ jobs ∧ About (allPackages rs) E j)
  (hB : ∀ j ∈ jobs, j ∈ jobs1 ∨ About (allPackages rs) (fun k => ¬ E k) j)
  (hver : ∀ k k', InstalledKeys s k → InstalledKeys s k' → E k → E k' → k.version = k'.version → k = k')
include hA hB

/-- the same packages of `E` are to be kept -/
theorem same_preferred {k : PKey N S U} (hkE : E k) : (¬ ∃ j ∈ jobs1, SoftlyUpdated (allPackages rs) (InstalledKeys s) j k) ↔
    ¬ ∃ j ∈ jobs, SoftlyUpdated (allPackages rs) (InstalledKeys s) j k := by
  refine not_congr ⟨fun ⟨j, hj, h⟩ => ⟨j, (hA j hj).1, h⟩, ?_⟩
  rintro ⟨j, hj, h⟩
  rcases hB j hj with h1 | h1
  · exact ⟨j, h1, h⟩
  · obtain ⟨-, -, r, hr, p, hp, rfl, hmeet⟩ := h
    exact absurd hkE (h1 r hr p hp hmeet.1)

include hc hc1 hE

theorem mix_first : ValidInstall (allPackages rs) m (InstalledKeys s) jobs (Mix E (Chosen rs pool1 st1 a1) (Chosen rs pool st a)) := by
  classical
  refine mix_valid hE (A := jobs1) (B := jobs.filter (fun j => j ∉ jobs1)) (fun j hj => (hA j hj).2) ?_ ?_
    hc1.chosen_valid ⟨hc.chosen_valid.consistent, fun j hj => hc.chosen_valid.jobs j (List.mem_filter.1 hj).1⟩
  · intro j hj
    obtain ⟨h1, h2⟩ := List.mem_filter.1 hj
    exact (hB j h1).resolve_left (by simpa using h2)
  · intro j hj
    by_cases h1 : j ∈ jobs1
    · exact Or.inl h1
    · exact Or.inr (List.mem_filter.2 ⟨hj, by simpa using h1⟩)

theorem mix_second : ValidInstall (allPackages rs) m (InstalledKeys s) jobs1 (Mix E (Chosen rs pool st a) (Chosen rs pool1 st1 a1)) :=
  mix_valid hE (A := jobs1) (B := []) (fun j hj => (hA j hj).2) (by simp) (fun j hj => Or.inl hj)
    ⟨hc.chosen_valid.consistent, fun j hj => hc.chosen_valid.jobs j (hA j hj).1⟩ ⟨hc1.chosen_valid.consistent, by simp⟩

include hsearch hsearch1 hver

theorem same_kept_chosen : ∀ p ∈ s.installed.iter, E p.key →
    (¬ ∃ j ∈ jobs1, SoftlyUpdated (allPackages rs) (InstalledKeys s) j p.key) →
    (Chosen rs pool st a p.key ↔ Chosen rs pool1 st1 a1 p.key) := by
  by_contra hbad
  obtain ⟨p, hp, ⟨hpE, hsoft, hdiff⟩, hleast⟩ := exists_least (fun p : Package N S U => p.version) (fun p : Package N S U => E p.key ∧
    (¬ ∃ j ∈ jobs1, SoftlyUpdated (allPackages rs) (InstalledKeys s) j p.key) ∧
    ¬ (Chosen rs pool st a p.key ↔ Chosen rs pool1 st1 a1 p.key)) s.installed.iter (by
      by_contra hn
      exact hbad (fun p hp h1 h2 => by by_contra h3; exact hn ⟨p, hp, h1, h2, h3⟩))
  have hag : ∀ k, InstalledKeys s k → E k → (¬ ∃ j ∈ jobs1, SoftlyUpdated (allPackages rs) (InstalledKeys s) j k) →
      k.version ≤ p.version → k ≠ p.key → (Chosen rs pool st a k ↔ Chosen rs pool1 st1 a1 k) := by
    rintro k ⟨p', hp', rfl⟩ hk' hs' hle hne
    by_contra hd
    exact hne (hver _ _ ⟨p', hp', rfl⟩ ⟨p, hp, rfl⟩ hk' hpE (le_antisymm hle (hleast p' hp' ⟨hk', hs', hd⟩)))
  obtain ⟨i, hi⟩ := hc.setup.known p hp
  obtain ⟨i1, hi1⟩ := hc1.setup.known p hp
  by_cases h1 : Chosen rs pool st a p.key
  · have h2 : ¬ Chosen rs pool1 st1 a1 p.key := fun h2 => hdiff ⟨fun _ => h2, fun _ => h1⟩
    refine Completed.lex hc1 hsearch1 hp hsoft hi1 ((Completed.false_iff hc1 hsearch1 hp hsoft hi1).2 h2)
      (mix_second hc hc1 hE hA hB) ?_ (Or.inl ⟨h1, hpE⟩)
    intro k hk hks hch hle
    by_cases hkE : E k
    · refine Or.inl ⟨(hag k hk hkE hks hle (fun e => h2 (e ▸ hch))).2 hch, hkE⟩
    · exact Or.inr ⟨hch, hkE⟩
  · have h2 : Chosen rs pool1 st1 a1 p.key := by
      by_contra h2
      exact hdiff ⟨fun h => absurd h h1, fun h => absurd h h2⟩
    have hsoft' := (same_preferred hA hB hpE).1 hsoft
    refine Completed.lex hc hsearch hp hsoft' hi ((Completed.false_iff hc hsearch hp hsoft' hi).2 h1)
      (mix_first hc hc1 hE hA hB) ?_ (Or.inl ⟨h2, hpE⟩)
    intro k hk hks hch hle
    by_cases hkE : E k
    · refine Or.inl ⟨(hag k hk hkE ((same_preferred hA hB hkE).2 hks) hle (fun e => h1 (e ▸ hch))).1 hch, hkE⟩
    · exact Or.inr ⟨hch, hkE⟩

theorem same_requested_chosen
    (hties : ∀ j ∈ jobs1, ∀ j' ∈ jobs1, j.kind ≠ .remove → j'.kind ≠ .remove → ∀ p p', Requested (allPackages rs) (InstalledKeys s) j p →
      Requested (allPackages rs) (InstalledKeys s) j' p' → p.version = p'.version → p.key = p'.key) :
    ∀ p ∈ allPackages rs, (∃ j ∈ jobs1, j.kind ≠ .remove ∧ Requested (allPackages rs) (InstalledKeys s) j p) →
    (Chosen rs pool st a p.key ↔ Chosen rs pool1 st1 a1 p.key) := by
  have hkeep := same_kept_chosen hc hc1 hsearch hsearch1 hE hA hB hver
  have hreqE : ∀ j p, About (allPackages rs) E j → Requested (allPackages rs) (InstalledKeys s) j p → p ∈ allPackages rs ∧ E p.key := by
    rintro j p hj ⟨r, hr, hp⟩
    have : p ∈ allPackages rs ∧ MeetsJob r p := by
      split at hp
      · obtain ⟨before, after, e, hm, -⟩ := hp
        exact ⟨by rw [e]; simp, hm⟩
      · exact hp
    exact ⟨this.1, hj r hr p this.1 this.2.1⟩
  have hreqN : ∀ j p, About (allPackages rs) (fun k => ¬ E k) j → Requested (allPackages rs) (InstalledKeys s) j p → ¬ E p.key := by
    rintro j p hj ⟨r, hr, hp⟩
    have : p ∈ allPackages rs ∧ MeetsJob r p := by
      split at hp
      · obtain ⟨before, after, e, hm, -⟩ := hp
        exact ⟨by rw [e]; simp, hm⟩
      · exact hp
    exact hj r hr p this.1 this.2.1
  by_contra hbad
  obtain ⟨p, hpa, ⟨⟨j, hj, hnr, hp⟩, hdiff⟩, hnewest⟩ := exists_newest (P := fun p : Package N S U =>
    (∃ j ∈ jobs1, j.kind ≠ .remove ∧ Requested (allPackages rs) (InstalledKeys s) j p) ∧
    ¬ (Chosen rs pool st a p.key ↔ Chosen rs pool1 st1 a1 p.key)) (allPackages rs) (by
      by_contra hn
      exact hbad (fun p hp h1 => by by_contra h3; exact hn ⟨p, hp, h1, h3⟩))
  have hpE := (hreqE j p (hA j hj).2 hp).2
  have hag : ∀ j' ∈ jobs1, j'.kind ≠ .remove → ∀ p', Requested (allPackages rs) (InstalledKeys s) j' p' → p.version ≤ p'.version →
      p'.key ≠ p.key → (Chosen rs pool st a p'.key ↔ Chosen rs pool1 st1 a1 p'.key) := by
    intro j' hj' hnr' p' hp' hle hne
    by_contra hd
    have := hnewest p' (hreqE j' p' (hA j' hj').2 hp').1 ⟨⟨j', hj', hnr', hp'⟩, hd⟩
    exact hne (hties j' hj' j hj hnr' hnr p' p hp' hp (le_antisymm this hle))
  obtain ⟨i, hi⟩ := hc.built.ok.ids.packageId_ok ⟨p, hpa, rfl⟩
  obtain ⟨i1, hi1⟩ := hc1.built.ok.ids.packageId_ok ⟨p, hpa, rfl⟩
  by_cases h1 : Chosen rs pool st a p.key
  · have h2 : ¬ Chosen rs pool1 st1 a1 p.key := fun h2 => hdiff ⟨fun _ => h2, fun _ => h1⟩
    refine Completed.lexReq hc1 hsearch1 hj hp hi1 (Completed.req_false hc1 hj hnr hp hi1 h2)
      (mix_second hc hc1 hE hA hB) ?_ ?_ (Or.inl ⟨h1, hpE⟩)
    · rintro k ⟨p', hp', rfl⟩ hks hch
      by_cases hkE : E p'.key
      · exact Or.inl ⟨(hkeep p' hp' hkE hks).2 hch, hkE⟩
      · exact Or.inr ⟨hch, hkE⟩
    · intro j' hj' hnr' p' hp' hch hle
      exact Or.inl ⟨(hag j' hj' hnr' p' hp' hle (fun e => h2 (e ▸ hch))).2 hch, (hreqE j' p' (hA j' hj').2 hp').2⟩
  · have h2 : Chosen rs pool1 st1 a1 p.key := by
      by_contra h2
      exact hdiff ⟨fun h => absurd h h1, fun h => absurd h h2⟩
    refine Completed.lexReq hc hsearch (hA j hj).1 hp hi (Completed.req_false hc (hA j hj).1 hnr hp hi h1)
      (mix_first hc hc1 hE hA hB) ?_ ?_ (Or.inl ⟨h2, hpE⟩)
    · rintro k ⟨p', hp', rfl⟩ hks hch
      by_cases hkE : E p'.key
      · exact Or.inl ⟨(hkeep p' hp' hkE ((same_preferred hA hB hkE).2 hks)).1 hch, hkE⟩
      · exact Or.inr ⟨hch, hkE⟩
    · intro j' hj' hnr' p' hp' hch hle
      rcases hB j' hj' with hj1 | hj1
      · exact Or.inl ⟨(hag j' hj1 hnr' p' hp' hle (fun e => h1 (e ▸ hch))).1 hch, (hreqE j' p' (hA j' hj1).2 hp').2⟩
      · exact Or.inr ⟨hch, hreqN j' p' hj1 hp'⟩

end

/-- C138: which of the installed packages of `E` are kept does not depend on the jobs about other packages: it is the same as if only the
jobs about packages of `E` were asked for. (For packages that no soft update asks for, if no two of them have the same version: otherwise
it depends on the order of a set, C76; and if there is no other package of the same name and version.) -/
theorem C138_same_kept (hs : SolverFor rs s) {E : PKey N S U → Prop} (hE : Separate (allPackages rs) E) {o o1 : Orders}
    {q q1 : Request N U} (hm : q1.modifiers = q.modifiers) {t t1 : Transaction N S U} (ht : s.solve o q = .ok t)
    (ht1 : s.solve o1 q1 = .ok t1) (hA : ∀ j ∈ effectiveJobs s q1, j ∈ effectiveJobs s q ∧ About (allPackages rs) E j)
    (hB : ∀ j ∈ effectiveJobs s q, j ∈ effectiveJobs s q1 ∨ About (allPackages rs) (fun k => ¬ E k) j)
    (hver : ∀ k k', InstalledKeys s k → InstalledKeys s k' → E k → E k' → k.version = k'.version → k = k')
    (htwin : ∀ k, InstalledKeys s k → E k → ∀ p ∈ allPackages rs, SameNameVersion k p.key → p.key = k)
    {k : PKey N S U} (hk : Preferred rs s q1 k) (hkE : E k) : Result s t k ↔ Result s t1 k := by
  obtain ⟨pool, st, a, installed, D, hc, hsearch, ht⟩ := solve_ok hs ht
  obtain ⟨pool1, st1, a1, installed1, D1, hc1, hsearch1, ht1⟩ := solve_ok hs ht1
  rw [hm] at hc1
  obtain ⟨⟨p, hp, rfl⟩, hsoft⟩ := hk
  have htw := htwin p.key ⟨p, hp, rfl⟩ hkE
  rw [Completed.result_iff hc hsearch ht hp ((same_preferred hA hB hkE).1 hsoft) htw, Completed.result_iff hc1 hsearch1 ht1 hp hsoft htw]
  exact same_kept_chosen hc hc1 hsearch hsearch1 hE hA hB hver p hp hkE hsoft

/-- C138: and the same packages are chosen for the jobs about packages of `E`. (Again without ties: no two different packages that these jobs
ask for have the same version.) -/
theorem C138_same_choice (hs : SolverFor rs s) {E : PKey N S U → Prop} (hE : Separate (allPackages rs) E) {o o1 : Orders}
    {q q1 : Request N U} (hm : q1.modifiers = q.modifiers) {t t1 : Transaction N S U} (ht : s.solve o q = .ok t)
    (ht1 : s.solve o1 q1 = .ok t1) (hA : ∀ j ∈ effectiveJobs s q1, j ∈ effectiveJobs s q ∧ About (allPackages rs) E j)
    (hB : ∀ j ∈ effectiveJobs s q, j ∈ effectiveJobs s q1 ∨ About (allPackages rs) (fun k => ¬ E k) j)
    (hver : ∀ k k', InstalledKeys s k → InstalledKeys s k' → E k → E k' → k.version = k'.version → k = k')
    (hties : ∀ j ∈ effectiveJobs s q1, ∀ j' ∈ effectiveJobs s q1, j.kind ≠ .remove → j'.kind ≠ .remove → ∀ p p',
      Requested (allPackages rs) (InstalledKeys s) j p → Requested (allPackages rs) (InstalledKeys s) j' p' →
      p.version = p'.version → p.key = p'.key)
    {j : Job N U} (hj : j ∈ effectiveJobs s q1) (hk : j.kind ≠ .remove) {p : Package N S U} (hpa : p ∈ allPackages rs)
    (hp : Requested (allPackages rs) (InstalledKeys s) j p)
    (htwin : ∀ p' ∈ allPackages rs, SameNameVersion p.key p'.key → p'.key = p.key) : Result s t p.key ↔ Result s t1 p.key := by
  obtain ⟨pool, st, a, installed, D, hc, hsearch, ht⟩ := solve_ok hs ht
  obtain ⟨pool1, st1, a1, installed1, D1, hc1, hsearch1, ht1⟩ := solve_ok hs ht1
  rw [hm] at hc1
  rw [Completed.req_result_iff hc ht (hA j hj).1 hk hp hpa htwin, Completed.req_result_iff hc1 ht1 hj hk hp hpa htwin]
  exact same_requested_chosen hc hc1 hsearch hsearch1 hE hA hB hver hties p hpa ⟨j, hj, hk, hp⟩

/-! ### C76 without ties -/

/-- C76 (partial): whatever the iteration orders of sets, the same installed packages are kept (of those that no soft update asks for), if no two
installed packages have the same version and no other package has the same name and version. -/
theorem C76_same_kept_partial (hs : SolverFor rs s) {o o' : Orders} {q : Request N U} {t t' : Transaction N S U} (ht : s.solve o q = .ok t)
    (ht' : s.solve o' q = .ok t') (hver : ∀ k k', InstalledKeys s k → InstalledKeys s k' → k.version = k'.version → k = k')
    (htwin : ∀ k, InstalledKeys s k → ∀ p ∈ allPackages rs, SameNameVersion k p.key → p.key = k)
    {k : PKey N S U} (hk : Preferred rs s q k) : Result s t k ↔ Result s t' k :=
  C138_same_kept hs (E := fun _ => True) ⟨by simp, by simp, by simp⟩ rfl ht ht' (fun j hj => ⟨hj, fun _ _ _ _ _ => trivial⟩)
    (fun j hj => Or.inl hj) (fun k k' h h' _ _ => hver k k' h h') (fun k h _ => htwin k h) hk trivial

/-- C76 (partial): and the same packages are chosen for the jobs, if no two packages that they ask for have the same version. (For packages that
were not asked for it is violated even then, see `C76_policy_order_matters`.) -/
theorem C76_same_choice_partial (hs : SolverFor rs s) {o o' : Orders} {q : Request N U} {t t' : Transaction N S U} (ht : s.solve o q = .ok t)
    (ht' : s.solve o' q = .ok t') (hver : ∀ k k', InstalledKeys s k → InstalledKeys s k' → k.version = k'.version → k = k')
    (hties : ∀ j ∈ effectiveJobs s q, ∀ j' ∈ effectiveJobs s q, j.kind ≠ .remove → j'.kind ≠ .remove → ∀ p p',
      Requested (allPackages rs) (InstalledKeys s) j p → Requested (allPackages rs) (InstalledKeys s) j' p' →
      p.version = p'.version → p.key = p'.key)
    {j : Job N U} (hj : j ∈ effectiveJobs s q) (hk : j.kind ≠ .remove) {p : Package N S U} (hpa : p ∈ allPackages rs)
    (hp : Requested (allPackages rs) (InstalledKeys s) j p)
    (htwin : ∀ p' ∈ allPackages rs, SameNameVersion p.key p'.key → p'.key = p.key) : Result s t p.key ↔ Result s t' p.key :=
  C138_same_choice hs (E := fun _ => True) ⟨by simp, by simp, by simp⟩ rfl ht ht' (fun j hj => ⟨hj, fun _ _ _ _ _ => trivial⟩)
    (fun j hj => Or.inl hj) (fun k k' h h' _ _ => hver k k' h h') hties hj hk hpa hp htwin

/-! ### Examples -/

namespace SeparateExample
open Verif.Pkg.Example Verif.Solve.Example Verif.Solve.Check SolveExample

/-- 3 conflicts with 2, 6 needs 5; 2 and 3 have nothing to do with 1, 5 and 6 -/
def inst : List P := [pkg 9 1 1]
def remote : List P := [pkg 0 2 1, pkg 0 3 1 [] [dep 2], pkg 0 5 1, pkg 0 6 1 [dep 5]]
def E (k : PKey Nat Str Nat) : Prop := k.name = 2 ∨ k.name = 3
instance : DecidablePred E := fun k => by unfold E; infer_instance

theorem forIt : SolverFor (repos inst remote) (solver inst remote) := solverFor (by decide +kernel) (by decide +kernel)

theorem separate : Separate (allPackages (repos inst remote)) E := ⟨by decide +kernel, by decide +kernel, by decide +kernel⟩

theorem about {E : PKey Nat Str Nat → Prop} {j : Job Nat Nat}
    (h : ∀ r ∈ j.requirement.toList, ∀ p ∈ allPackages (repos inst remote), Provides p r.name → E p.key) :
    About (allPackages (repos inst remote)) E j := fun r hr => h r (by rw [hr]; simp)

theorem aboutE {j : Job Nat Nat} (hj : j ∈ [install (req 2), install (req 3)]) : About (allPackages (repos inst remote)) E j := by
  refine about ?_
  revert j
  decide +kernel

theorem aboutOthers {j : Job Nat Nat} (hj : j ∈ [install (req 6), install (req 5)]) :
    About (allPackages (repos inst remote)) (fun k => ¬ E k) j := by
  refine about ?_
  revert j
  decide +kernel

theorem example_hint : hintOf ((solver inst remote).solveWithHint insertionOrder (fun _ => insertionOrder)
    (request [install (req 6), install (req 2), install (req 5), install (req 3)])) = some [install (req 2), install (req 3)] := by
  decide +kernel

example : (∀ j ∈ [install (req 2), install (req 3)], About (allPackages (repos inst remote)) E j) ∨
    ∀ j ∈ [install (req 2), install (req 3)], About (allPackages (repos inst remote)) (fun k => ¬ E k) j := by
  obtain ⟨u, hu⟩ := hintOf_some example_hint
  refine C138_hint forIt separate hu ?_
  rw [effectiveJobs_plain _ (by decide +kernel)]
  intro j hj
  have : j ∈ [install (req 2), install (req 3)] ∨ j ∈ [install (req 6), install (req 5)] := by
    revert j
    decide +kernel
  exact this.imp aboutE aboutOthers

theorem wellFormed : WellFormed (repos inst remote) (solver inst remote)
    ⟨Modifiers.empty, [install (req 2), install (req 3)] ++ [install (req 6), install (req 5)]⟩ := by
  have h1 : ∀ p ∈ allPackages (repos inst remote),
      (∀ t ∈ p.installRequires, ∃ r : Requirement Nat Nat, fromConstraints .install t = .ok r) ∧
      (∀ t ∈ p.conflicts, ∃ r : Requirement Nat Nat, fromConstraints .conflict t = .ok r) := by decide +kernel
  have h2 : ∀ p ∈ (solver inst remote).installed.iter, ∃ q ∈ allPackages (repos inst remote), q.key = p.key := by
    decide +kernel
  have hj : ∀ j ∈ [install (req 2), install (req 3)] ++ [install (req 6), install (req 5)],
      j.kind ≠ .upgrade ∧ j.requirement.isSome = true := by decide +kernel
  refine ⟨fun p hp => readable_of (h1 p hp).1 (h1 p hp).2, ?_, rfl, ?_⟩
  · rintro k ⟨p, hp, rfl⟩
    exact h2 p hp
  · rw [effectiveJobs_plain _ (fun j h => (hj j h).1)]
    intro j h
    exact ⟨(hj j h).1, Option.isSome_iff_exists.1 (hj j h).2⟩

example (o o1 o2 : Orders) := C138_unsatisfiable_iff forIt separate o o1 o2 wellFormed (by
    have : ∀ j ∈ [install (req 2), install (req 3)] ++ [install (req 6), install (req 5)], j.kind ≠ .upgrade ∧
        ∃ r ∈ j.requirement.toList, ∃ p ∈ allPackages (repos inst remote), MeetsJob r p := by decide +kernel
    intro j hj
    obtain ⟨h1, r, h2, h3⟩ := this j hj
    exact ⟨h1, r, Option.mem_toList.1 h2, h3⟩) (fun _ => aboutE) (fun _ => aboutOthers)

theorem ran1 : solved ((solver inst remote).solve insertionOrder (request [install (req 3)])) =
    some (.ok ([.install (pkg 0 3 1 [] [dep 2])], [.install (pkg 0 3 1 [] [dep 2])])) := by decide +kernel
theorem ran2 : solved ((solver inst remote).solve insertionOrder (request [install (req 6)])) =
    some (.ok ([.install (pkg 0 5 1), .install (pkg 0 6 1 [dep 5])], [.install (pkg 0 5 1), .install (pkg 0 6 1 [dep 5])])) := by
  decide +kernel

example (o : Orders) (u : Sat.UnsatInfo) :
    (solver inst remote).solve o (request [install (req 6), install (req 3)]) ≠ .error (.sat (.satisfiability u)) := by
  obtain ⟨t1, ht1, -⟩ := solved_ok ran1
  obtain ⟨t2, ht2, -⟩ := solved_ok ran2
  refine C138_together (q := request [install (req 6), install (req 3)]) (q1 := request [install (req 3)]) (q2 := request [install (req 6)]) forIt separate rfl rfl ?_ ?_ ?_ ht1 ht2 u
  · rw [effectiveJobs_plain _ (by decide +kernel)]
    exact fun j hj => aboutE (List.mem_cons_of_mem _ hj)
  · rw [effectiveJobs_plain _ (by decide +kernel)]
    intro j hj
    rw [List.mem_singleton.1 hj]
    exact aboutOthers (List.mem_cons_self ..)
  · rw [effectiveJobs_plain _ (by decide +kernel), effectiveJobs_plain _ (by decide +kernel), effectiveJobs_plain _ (by decide +kernel)]
    decide +kernel

/-- 4 is asked for, which conflicts with the installed 2 or, in its newer version, with 3 and 2, and 7, which conflicts with 1 -/
def inst2 : List P := [pkg 9 1 1, pkg 9 2 1, pkg 9 3 2]
def remote2 : List P := [pkg 0 4 1 [] [dep 2], pkg 0 4 2 [] [dep 3, dep 2], pkg 0 7 1 [] [dep 1]]
def E2 (k : PKey Nat Str Nat) : Prop := k.name = 2 ∨ k.name = 3 ∨ k.name = 4
instance : DecidablePred E2 := fun k => by unfold E2; infer_instance

def inst3 : List P := [pkg 9 2 1, pkg 9 3 2]

theorem ran4 : solved ((solver inst2 remote2).solve insertionOrder (request [install (req 4)])) =
    some (.ok ([.remove (pkg 9 2 1), .install (pkg 0 4 1 [] [dep 2])], [.remove (pkg 9 2 1), .install (pkg 0 4 1 [] [dep 2])])) := by
  decide +kernel
theorem ran47 : solved ((solver inst2 remote2).solve insertionOrder (request [install (req 7), install (req 4)])) =
    some (.ok ([.remove (pkg 9 2 1), .remove (pkg 9 1 1), .install (pkg 0 4 1 [] [dep 2]), .install (pkg 0 7 1 [] [dep 1])],
      [.remove (pkg 9 2 1), .remove (pkg 9 1 1), .install (pkg 0 4 1 [] [dep 2]), .install (pkg 0 7 1 [] [dep 1])])) := by
  decide +kernel

example : ∃ t t1, (solver inst2 remote2).solve insertionOrder (request [install (req 7), install (req 4)]) = .ok t ∧
    (solver inst2 remote2).solve insertionOrder (request [install (req 4)]) = .ok t1 ∧
    (∀ k, InstalledKeys (solver inst2 remote2) k → E2 k → (Result (solver inst2 remote2) t k ↔ Result (solver inst2 remote2) t1 k)) ∧
    (Result (solver inst2 remote2) t (pkg 0 4 1 [] [dep 2]).key ↔ Result (solver inst2 remote2) t1 (pkg 0 4 1 [] [dep 2]).key) := by
  obtain ⟨t1, ht1, -⟩ := solved_ok ran4
  obtain ⟨t, ht, -⟩ := solved_ok ran47
  have hs : SolverFor (repos inst2 remote2) (solver inst2 remote2) := solverFor (by decide +kernel) (by decide +kernel)
  have hE : Separate (allPackages (repos inst2 remote2)) E2 := ⟨by decide +kernel, by decide +kernel, by decide +kernel⟩
  have e1 : effectiveJobs (solver inst2 remote2) (request [install (req 4)]) = [install (req 4)] :=
    effectiveJobs_plain _ (by decide +kernel)
  have e2 : effectiveJobs (solver inst2 remote2) (request [install (req 7), install (req 4)]) = [install (req 7), install (req 4)] :=
    effectiveJobs_plain _ (by decide +kernel)
  have hA : ∀ j ∈ effectiveJobs (solver inst2 remote2) (request [install (req 4)]),
      j ∈ effectiveJobs (solver inst2 remote2) (request [install (req 7), install (req 4)]) ∧
        About (allPackages (repos inst2 remote2)) E2 j := by
    rw [e1, e2]
    intro j hj
    rw [List.mem_singleton.1 hj]
    refine ⟨by decide +kernel, fun r hr => ?_⟩
    cases hr
    decide +kernel
  have hB : ∀ j ∈ effectiveJobs (solver inst2 remote2) (request [install (req 7), install (req 4)]),
      j ∈ effectiveJobs (solver inst2 remote2) (request [install (req 4)]) ∨
        About (allPackages (repos inst2 remote2)) (fun k => ¬ E2 k) j := by
    rw [e1, e2]
    intro j hj
    rcases List.mem_cons.1 hj with rfl | hj
    · right
      intro r hr
      cases hr
      decide +kernel
    · exact Or.inl hj
  have hver : ∀ k k', InstalledKeys (solver inst2 remote2) k → InstalledKeys (solver inst2 remote2) k' → E2 k → E2 k' →
      k.version = k'.version → k = k' := by
    have : ∀ k ∈ (solver inst2 remote2).installed.iter.map Package.key, ∀ k' ∈ (solver inst2 remote2).installed.iter.map Package.key,
        E2 k → E2 k' → k.version = k'.version → k = k' := by decide +kernel
    rw [installedKeys_eq]
    exact fun k k' h h' => this k h k' h'
  have hp : pkg 0 4 1 [] [dep 2] ∈ allPackages (repos inst2 remote2) := by decide +kernel
  have hreq : Requested (allPackages (repos inst2 remote2)) (InstalledKeys (solver inst2 remote2)) (install (req 4))
      (pkg 0 4 1 [] [dep 2]) := by
    refine ⟨req 4, rfl, ?_⟩
    rw [if_neg (by decide)]
    exact ⟨hp, by decide +kernel⟩
  have hm : (request [install (req 4)]).modifiers = (request [install (req 7), install (req 4)]).modifiers := rfl
  refine ⟨t, t1, ht, ht1, fun k hk hkE => C138_same_kept hs hE hm ht ht1 hA hB hver ?_ ⟨hk, ?_⟩ hkE,
    C138_same_choice hs hE hm ht ht1 hA hB hver ?_ (j := install (req 4)) ?_ (by decide) hp hreq (by decide +kernel)⟩
  · have : ∀ k ∈ (solver inst2 remote2).installed.iter.map Package.key, E2 k → ∀ p ∈ allPackages (repos inst2 remote2),
        SameNameVersion k p.key → p.key = k := by decide +kernel
    rw [installedKeys_eq]
    exact fun k h => this k h
  · rw [e1]
    rintro ⟨j, hj, hsoft, -⟩
    rw [List.mem_singleton.1 hj] at hsoft
    cases hsoft
  · rw [e1]
    intro j hj j' hj' _ _ p p' hp hp'
    rw [List.mem_singleton.1 hj] at hp
    rw [List.mem_singleton.1 hj'] at hp'
    obtain ⟨r, hr, hp⟩ := hp
    obtain ⟨r', hr', hp'⟩ := hp'
    cases hr
    cases hr'
    rw [if_neg (by decide)] at hp hp'
    have : ∀ p ∈ allPackages (repos inst2 remote2), MeetsJob (req 4) p → ∀ p' ∈ allPackages (repos inst2 remote2), MeetsJob (req 4) p' →
        p.version = p'.version → p.key = p'.key := by decide +kernel
    exact this p hp.1 hp.2 p' hp'.1 hp'.2
  · rw [e1]; simp

theorem hver2 : ∀ k k', InstalledKeys (solver inst3 remote2) k → InstalledKeys (solver inst3 remote2) k' → k.version = k'.version → k = k' := by
  have : ∀ k ∈ (solver inst3 remote2).installed.iter.map Package.key, ∀ k' ∈ (solver inst3 remote2).installed.iter.map Package.key,
      k.version = k'.version → k = k' := by decide +kernel
  rw [installedKeys_eq]
  exact fun k k' h h' => this k h k' h'

theorem ran5 : solved ((solver inst3 remote2).solve insertionOrder (request [install (req 4)])) =
    some (.ok ([.remove (pkg 9 2 1), .install (pkg 0 4 1 [] [dep 2])], [.remove (pkg 9 2 1), .install (pkg 0 4 1 [] [dep 2])])) := by
  decide +kernel

example (o : Orders) (t' : Transaction Nat Str Nat) (ht' : (solver inst3 remote2).solve o (request [install (req 4)]) = .ok t') :
    ∃ t, (solver inst3 remote2).solve insertionOrder (request [install (req 4)]) = .ok t ∧
    (∀ k, InstalledKeys (solver inst3 remote2) k → (Result (solver inst3 remote2) t k ↔ Result (solver inst3 remote2) t' k)) ∧
    (Result (solver inst3 remote2) t (pkg 0 4 1 [] [dep 2]).key ↔ Result (solver inst3 remote2) t' (pkg 0 4 1 [] [dep 2]).key) := by
  obtain ⟨t, ht, -⟩ := solved_ok ran5
  have hs : SolverFor (repos inst3 remote2) (solver inst3 remote2) := solverFor (by decide +kernel) (by decide +kernel)
  have e1 : effectiveJobs (solver inst3 remote2) (request [install (req 4)]) = [install (req 4)] :=
    effectiveJobs_plain _ (by decide +kernel)
  have hp : pkg 0 4 1 [] [dep 2] ∈ allPackages (repos inst3 remote2) := by decide +kernel
  have hreq : Requested (allPackages (repos inst3 remote2)) (InstalledKeys (solver inst3 remote2)) (install (req 4))
      (pkg 0 4 1 [] [dep 2]) := by
    refine ⟨req 4, rfl, ?_⟩
    rw [if_neg (by decide)]
    exact ⟨hp, by decide +kernel⟩
  refine ⟨t, ht, fun k hk => C76_same_kept_partial hs ht ht' hver2 ?_ ⟨hk, ?_⟩,
    C76_same_choice_partial hs ht ht' hver2 ?_ (j := install (req 4)) ?_ (by decide) hp hreq (by decide +kernel)⟩
  · have : ∀ k ∈ (solver inst3 remote2).installed.iter.map Package.key, ∀ p ∈ allPackages (repos inst3 remote2),
        SameNameVersion k p.key → p.key = k := by decide +kernel
    rw [installedKeys_eq]
    exact fun k h => this k h
  · rw [e1]
    rintro ⟨j, hj, hsoft, -⟩
    rw [List.mem_singleton.1 hj] at hsoft
    cases hsoft
  · rw [e1]
    intro j hj j' hj' _ _ p p' hp hp'
    rw [List.mem_singleton.1 hj] at hp
    rw [List.mem_singleton.1 hj'] at hp'
    obtain ⟨r, hr, hp⟩ := hp
    obtain ⟨r', hr', hp'⟩ := hp'
    cases hr
    cases hr'
    rw [if_neg (by decide)] at hp hp'
    have : ∀ p ∈ allPackages (repos inst3 remote2), MeetsJob (req 4) p → ∀ p' ∈ allPackages (repos inst3 remote2), MeetsJob (req 4) p' →
        p.version = p'.version → p.key = p'.key := by decide +kernel
    exact this p hp.1 hp.2 p' hp'.1 hp'.2
  · rw [e1]; simp

end SeparateExample
end Verif.Props
