import Verif.Scenario.Spec
import Mathlib.Data.List.Basic
import Mathlib.Data.List.Nodup
import Mathlib.Data.List.Perm.Basic
import Verif.Props.Repositories
import Verif.Props.Solve
/-
C80-C83: scenario files (simplesat/test_utils.py).
-/
set_option linter.unusedSectionVars false
namespace Verif.Props
open Verif Verif.Pkg Verif.Text Verif.Solve Verif.Scn

variable [CharTable] {U : Type} [LinearOrder U] [VersionText U] [LinearOrder Str]

/-! ### C80: the request -/

theorem readRequirement_ok {s : Str} {r : Requirement Str U} : readRequirement s = .ok r ↔ Denotes s r := by
  unfold readRequirement Denotes
  let _ := asciiTable
  cases h : fromString (U := U) .plain s with
  | error e => simp
  | ok q =>
    obtain ⟨c, n, cs⟩ := q
    cases n with
    | none => simp
    | some n =>
      simp only [Except.ok.injEq]
      constructor
      · rintro rfl; rfl
      · intro h
        obtain ⟨c', n', cs'⟩ := r
        simp only [Requirement.mk.injEq, Option.some.injEq] at h
        obtain ⟨rfl, rfl, rfl⟩ := h
        rfl

theorem addJob_ok {q q' : Request Str U} {r : Option (Requirement Str U)} {k : JobKind} (h : q.addJob r k = .ok q') :
    q' = { q with jobs := q.jobs ++ [⟨r, k⟩] } := by
  unfold Request.addJob at h
  split at h
  · cases h
  · split at h
    · cases h
    · cases h; rfl

theorem addOperation_ok {q q' : Request Str U} {w : Str} {r : Requirement Str U} (h : addOperation q w r = .ok q') :
    ∃ k, k ≠ .upgrade ∧ w = jobWord k ∧ q' = { q with jobs := q.jobs ++ [⟨some r, k⟩] } := by
  have go : ∀ k, Scn.liftP (q.addJob (some r) k) = .ok q' → q' = { q with jobs := q.jobs ++ [⟨some r, k⟩] } := by
    intro k hk
    cases ha : q.addJob (some r) k with
    | error e => rw [ha] at hk; cases hk
    | ok q'' => rw [ha] at hk; cases hk; exact addJob_ok ha
  unfold addOperation at h
  split at h
  · next hw => exact ⟨.install, by simp, hw, go _ h⟩
  split at h
  · next hw => exact ⟨.remove, by simp, hw, go _ h⟩
  split at h
  · next hw => exact ⟨.hardUpdate, by simp, hw, go _ h⟩
  split at h
  · next hw => exact ⟨.softUpdate, by simp, hw, go _ h⟩
  split at h <;> cases h

/-- the names that the jobs ask for -/
def jobNames (js : List (Job Str U)) : List Str := js.filterMap (fun j => j.requirement.map Requirement.name)

theorem requestLoop_ok (es : List Entry) : ∀ {q q' : Request Str U} {marked marked' : List Str} {u u' : Bool},
    requestLoop es q marked u = .ok (q', marked', u') →
    ∃ listed, q'.modifiers = q.modifiers ∧ q'.jobs = q.jobs ++ listed ∧
      List.Forall₂ EntryJob (es.filter (fun e => !e.updateAll)) listed ∧
      marked' = (jobNames listed).foldl List.erase marked ∧ u' = (u || es.any Entry.updateAll) := by
  induction es with
  | nil =>
    intro q q' marked marked' u u' h
    rw [requestLoop] at h
    cases h
    exact ⟨[], rfl, by simp, by simp, rfl, by simp⟩
  | cons e es ih =>
    intro q q' marked marked' u u' h
    rw [requestLoop] at h
    cases ho : e.operation with
    | none => rw [ho] at h; cases h
    | some w =>
      rw [ho] at h
      simp only [required] at h
      split at h
      · next hw =>
        obtain ⟨listed, h1, h2, h3, h4, h5⟩ := ih h
        have hu : e.updateAll = true := by unfold Entry.updateAll; rw [ho, hw]; simp
        refine ⟨listed, h1, h2, ?_, h4, ?_⟩
        · rw [List.filter_cons_of_neg (by simp [hu])]; exact h3
        · rw [h5]; simp [hu]
      · next hw =>
        have hu : e.updateAll = false := decide_eq_false (by rw [ho]; intro he; exact hw (Option.some.inj he))
        cases hr : e.requirement with
        | none => rw [hr] at h; cases h
        | some text =>
          rw [hr] at h
          simp only at h
          cases hread : readRequirement (U := U) text with
          | error x => rw [hread] at h; cases h
          | ok r =>
            rw [hread] at h
            simp only at h
            cases ha : addOperation q w r with
            | error x => rw [ha] at h; cases h
            | ok q1 =>
              rw [ha] at h
              simp only at h
              obtain ⟨listed, h1, h2, h3, h4, h5⟩ := ih h
              obtain ⟨k, hk, hwk, rfl⟩ := addOperation_ok ha
              refine ⟨⟨some r, k⟩ :: listed, h1, by rw [h2]; simp, ?_, ?_, ?_⟩
              · rw [List.filter_cons_of_pos (by simp [hu])]
                exact List.Forall₂.cons ⟨hk, by rw [ho, hwk], text, r, hr, readRequirement_ok.1 hread, rfl⟩ h3
              · rw [h4]; rfl
              · rw [h5]; simp [hu]

theorem markedLoop_ok {kind : JobKind} (ms : List Str) : ∀ {q q' : Request Str U}, markedLoop kind ms q = .ok q' →
    ∃ kept, q'.modifiers = q.modifiers ∧ q'.jobs = q.jobs ++ kept ∧
      List.Forall₂ (fun m (j : Job Str U) => j.kind = kind ∧ ∃ r, Denotes m r ∧ j.requirement = some r) ms kept := by
  induction ms with
  | nil => intro q q' h; cases h; exact ⟨[], rfl, by simp, by simp⟩
  | cons m ms ih =>
    intro q q' h
    rw [markedLoop] at h
    cases hread : readRequirement (U := U) m with
    | error x => rw [hread] at h; cases h
    | ok r =>
      rw [hread] at h
      simp only at h
      cases ha : q.addJob (some r) kind with
      | error x => rw [ha] at h; cases h
      | ok q1 =>
        rw [ha] at h
        simp only at h
        obtain ⟨kept, h1, h2, h3⟩ := ih h
        have := addJob_ok ha
        subst this
        exact ⟨⟨some r, kind⟩ :: kept, h1, by rw [h2]; simp,
          List.Forall₂.cons ⟨rfl, r, readRequirement_ok.1 hread, rfl⟩ h3⟩

theorem erase_notMem_all (ns : List Str) : ∀ (l : List Str), l.Nodup →
    ns.foldl List.erase l = l.filter (fun m => decide (m ∉ ns)) := by
  induction ns with
  | nil => intro l _; simp
  | cons n ns ih =>
    intro l hl
    rw [List.foldl_cons, ih _ (hl.erase n), hl.erase_eq_filter, List.filter_filter]
    refine List.filter_congr ?_
    intro m hm
    by_cases h : m = n <;> simp [h]

theorem erase_sublist (ns : List Str) : ∀ (l : List Str), (ns.foldl List.erase l).Sublist l := by
  induction ns with
  | nil => intro l; exact List.Sublist.refl l
  | cons n ns ih => intro l; rw [List.foldl_cons]; exact (ih _).trans List.erase_sublist

theorem erase_count (ns : List Str) (x : Str) : ∀ (l : List Str), (ns.foldl List.erase l).count x = l.count x - ns.count x := by
  induction ns with
  | nil => intro l; simp
  | cons n ns ih =>
    intro l
    rw [List.foldl_cons, ih, List.count_erase, List.count_cons]
    by_cases h : n = x
    · subst h; simp; omega
    · simp [h]

/-- The request of a scenario that loads: the jobs of the entries, in their order, then one job for every mark that is left. -/
theorem request_ok {d : Data} {q : Request Str U} (h : buildRequest d = .ok q) :
    ∃ listed kept rest, q.jobs = listed ++ kept ∧ List.Forall₂ EntryJob d.jobEntries listed ∧
      List.Forall₂ (MarkJob d) rest kept ∧ rest = (jobNames listed).foldl List.erase d.marked ∧
      addModifiers Modifiers.empty d.modifiers = .ok q.modifiers := by
  unfold buildRequest at h
  cases hm : addModifiers Modifiers.empty d.modifiers with
  | error x => rw [hm] at h; cases h
  | ok m =>
    rw [hm] at h
    simp only at h
    cases hl : requestLoop (U := U) d.request ⟨m, []⟩ d.marked false with
    | error x => rw [hl] at h; cases h
    | ok r =>
      obtain ⟨q1, marked, u⟩ := r
      rw [hl] at h
      simp only at h
      obtain ⟨listed, h1, h2, h3, h4, h5⟩ := requestLoop_ok _ hl
      obtain ⟨kept, g1, g2, g3⟩ := markedLoop_ok _ h
      simp only [List.nil_append] at h2
      rw [h2] at g2
      refine ⟨listed, kept, marked, g2, h3, ?_, h4, by rw [g1, h1]⟩
      rw [h5] at g3
      simp only [Bool.false_or] at g3
      exact g3

theorem asked_iff {d : Data} {listed : List (Job Str U)} (h : List.Forall₂ EntryJob d.jobEntries listed) (n : Str) :
    n ∈ jobNames listed ↔ Asked U d n := by
  unfold Asked jobNames
  generalize d.jobEntries = es at h
  induction h with
  | nil => simp
  | cons hj _ ih =>
    obtain ⟨hk, -, text, r, h1, h2, h3⟩ := hj
    simp only [List.filterMap_cons, h3, Option.map_some, List.mem_cons, ih]
    constructor
    · rintro (rfl | ⟨e, he, rest⟩)
      · exact ⟨_, Or.inl rfl, text, h1, r, h2, rfl⟩
      · exact ⟨e, Or.inr he, rest⟩
    · rintro ⟨e, rfl | he, text', h4, r', h5, h6⟩
      · rw [h1] at h4
        cases h4
        left
        unfold Denotes at h2 h5
        rw [h2] at h5
        simp only [Except.ok.injEq, Requirement.mk.injEq, Option.some.injEq] at h5
        rw [h5.2.1]
        exact h6.symm
      · exact Or.inr ⟨e, he, text', h4, r', h5, h6⟩

/-- C80: the jobs of the request are the operations of the scenario (but `update_all`), in their order, and then one job for
each mark that is left: the marks in their order, without one occurrence of a name for each operation on that name. A
`update_all` anywhere makes these jobs hard updates; otherwise they are installs. -/
theorem C80_jobs {d : Data} {q : Request Str U} (h : buildRequest d = .ok q) :
    ∃ listed kept rest, q.jobs = listed ++ kept ∧ List.Forall₂ EntryJob d.jobEntries listed ∧
      List.Forall₂ (MarkJob d) rest kept ∧ rest.Sublist d.marked ∧
      ∀ n, rest.count n = d.marked.count n - (listed.filter (fun j => decide (j.requirement.map Requirement.name = some n))).length := by
  obtain ⟨listed, kept, rest, h1, h2, h3, rfl, -⟩ := request_ok h
  refine ⟨listed, kept, _, h1, h2, h3, erase_sublist _ _, ?_⟩
  intro n
  rw [erase_count]
  congr 1
  unfold jobNames
  clear h1 h2 h3
  induction listed with
  | nil => rfl
  | cons j js ih =>
    cases hr : j.requirement with
    | none => rw [List.filterMap_cons, hr]; simp only [Option.map_none, List.filter_cons, hr]; simpa using ih
    | some r =>
      rw [List.filterMap_cons, hr]
      simp only [Option.map_some, List.filter_cons, hr, List.count_cons, ih]
      by_cases hn : r.name = n <;> simp [hn]

/-- C80 (partial): if no package is marked twice, the marks that are left are those that are not the name of a requested
package. What is missing: of two equal marks, or of a mark that is not just a name, one remains although the package is
requested explicitly, see `C80_violated_*`. -/
theorem C80_marks_partial {d : Data} {q : Request Str U} (h : buildRequest d = .ok q) (hn : d.marked.Nodup) :
    ∃ listed kept rest, q.jobs = listed ++ kept ∧ List.Forall₂ EntryJob d.jobEntries listed ∧
      List.Forall₂ (MarkJob d) rest kept ∧ rest.Sublist d.marked ∧ ∀ m, m ∈ rest ↔ m ∈ d.marked ∧ ¬ Asked U d m := by
  obtain ⟨listed, kept, rest, h1, h2, h3, rfl, -⟩ := request_ok h
  refine ⟨listed, kept, _, h1, h2, h3, erase_sublist _ _, ?_⟩
  intro m
  rw [erase_notMem_all _ _ hn, List.mem_filter, decide_eq_true_iff, asked_iff h2]

theorem addValues_mem (kind : Str) (vs : List Str) : ∀ {m m' : Modifiers Str}, addValues m kind vs = .ok m' → ∀ x,
    (x ∈ m'.allowNewer ↔ x ∈ m.allowNewer ∨ (kind = wNewer ∧ x ∈ vs)) ∧
    (x ∈ m'.allowAny ↔ x ∈ m.allowAny ∨ (kind = wAny ∧ x ∈ vs)) ∧
    (x ∈ m'.allowOlder ↔ x ∈ m.allowOlder ∨ (kind = wOlder ∧ x ∈ vs)) := by
  induction vs with
  | nil => intro m m' h x; cases h; simp
  | cons v vs ih =>
    intro m m' h x
    rw [addValues] at h
    cases hm : addModifier m kind v with
    | error e => rw [hm] at h; cases h
    | ok m1 =>
      rw [hm] at h
      obtain ⟨h1, h2, h3⟩ := ih h x
      rw [h1, h2, h3]
      have hab : (wNewer : Str) ≠ wAny := by simp [wNewer, wAny]
      have hac : (wNewer : Str) ≠ wOlder := by simp [wNewer, wOlder]
      have hbc : (wAny : Str) ≠ wOlder := by simp [wAny, wOlder]
      unfold addModifier at hm
      clear h h1 h2 h3 ih
      generalize (wNewer : Str) = a at *
      generalize (wAny : Str) = b at *
      generalize (wOlder : Str) = c at *
      split at hm
      · next hk => cases hm; subst hk; simp only [Modifiers.addNewer, mem_sadd, List.mem_cons, hab, hac]; tauto
      split at hm
      · next hk => cases hm; subst hk; simp only [Modifiers.addAny, mem_sadd, List.mem_cons, hab.symm, hbc]; tauto
      split at hm
      · next hk => cases hm; subst hk; simp only [Modifiers.addOlder, mem_sadd, List.mem_cons, hac.symm, hbc.symm]; tauto
      split at hm <;> cases hm

theorem addModifiers_mem (l : List (Str × List Str)) : ∀ {m m' : Modifiers Str}, addModifiers m l = .ok m' → ∀ x,
    (x ∈ m'.allowNewer ↔ x ∈ m.allowNewer ∨ ∃ kv ∈ l, kv.1 = wNewer ∧ x ∈ kv.2) ∧
    (x ∈ m'.allowAny ↔ x ∈ m.allowAny ∨ ∃ kv ∈ l, kv.1 = wAny ∧ x ∈ kv.2) ∧
    (x ∈ m'.allowOlder ↔ x ∈ m.allowOlder ∨ ∃ kv ∈ l, kv.1 = wOlder ∧ x ∈ kv.2) := by
  induction l with
  | nil => intro m m' h x; cases h; simp
  | cons kv l ih =>
    intro m m' h x
    obtain ⟨k, vs⟩ := kv
    rw [addModifiers] at h
    cases hm : addValues m k vs with
    | error e => rw [hm] at h; cases h
    | ok m1 =>
      rw [hm] at h
      obtain ⟨h1, h2, h3⟩ := ih h x
      obtain ⟨g1, g2, g3⟩ := addValues_mem _ _ hm x
      rw [h1, h2, h3, g1, g2, g3]
      simp only [List.mem_cons, exists_eq_or_imp, or_assoc, and_self]

/-- C80: the modifiers of the request are the names listed under each of them. -/
theorem C80_modifiers {d : Data} {q : Request Str U} (h : buildRequest d = .ok q) (x : Str) :
    (x ∈ q.modifiers.allowNewer ↔ ∃ kv ∈ d.modifiers, kv.1 = wNewer ∧ x ∈ kv.2) ∧
    (x ∈ q.modifiers.allowAny ↔ ∃ kv ∈ d.modifiers, kv.1 = wAny ∧ x ∈ kv.2) ∧
    (x ∈ q.modifiers.allowOlder ↔ ∃ kv ∈ d.modifiers, kv.1 = wOlder ∧ x ∈ kv.2) := by
  obtain ⟨-, -, -, -, -, -, -, hm⟩ := request_ok h
  have := addModifiers_mem _ hm x
  simpa [Modifiers.empty] using this

theorem addJob_noUpgrade {q : Request Str U} (hq : ∀ j ∈ q.jobs, j.kind ≠ .upgrade) (r : Requirement Str U) {k : JobKind}
    (hk : k ≠ .upgrade) : q.addJob (some r) k = .ok { q with jobs := q.jobs ++ [⟨some r, k⟩] } := by
  unfold Request.addJob
  rw [if_neg, if_neg]
  · simp
  · rintro ⟨-, h | h⟩
    · rw [List.any_eq_true] at h
      obtain ⟨j, hj, hj'⟩ := h
      exact hq j hj (of_decide_eq_true hj')
    · exact hk h

theorem addValues_total : ∀ (k : Str), (k = wNewer ∨ k = wAny ∨ k = wOlder) →
    ∀ (vs : List Str) (m : Modifiers Str), ∃ m', addValues m k vs = .ok m' := by
  intro k hk vs
  induction vs with
  | nil => intro m; exact ⟨m, rfl⟩
  | cons v vs ih =>
    intro m
    rw [addValues]
    have : ∃ m1, addModifier m k v = .ok m1 := by
      unfold addModifier
      split
      · exact ⟨_, rfl⟩
      split
      · exact ⟨_, rfl⟩
      split
      · exact ⟨_, rfl⟩
      · next h1 h2 h3 =>
        rcases hk with hk | hk | hk
        · exact absurd hk h1
        · exact absurd hk h2
        · exact absurd hk h3
    obtain ⟨m1, h1⟩ := this
    rw [h1]
    exact ih m1


theorem addModifiers_total : ∀ (l : List (Str × List Str)) (m : Modifiers Str),
    (∀ kv ∈ l, kv.1 = wNewer ∨ kv.1 = wAny ∨ kv.1 = wOlder) →
    ∃ m', addModifiers m l = .ok m' := by
  intro l
  induction l with
  | nil => intro m _; exact ⟨m, rfl⟩
  | cons kv l ih =>
    intro m h
    obtain ⟨m1, h1⟩ := addValues_total kv.1 (h kv (by simp)) kv.2 m
    rw [addModifiers, h1]
    exact ih m1 (fun kv hkv => h kv (by simp [hkv]))


theorem addOperation_total : ∀ {q : Request Str U} (_ : ∀ j ∈ q.jobs, j.kind ≠ .upgrade) (r : Requirement Str U) {k : JobKind}, k ≠ .upgrade →
    addOperation q (jobWord k) r = .ok { q with jobs := q.jobs ++ [⟨some r, k⟩] } := by
  intro q hq r k hk
  have := addJob_noUpgrade hq r hk
  have n1 : (wRemove : Str) ≠ wInstall := by simp [wRemove, wInstall]
  have n2 : (wHardUpdate : Str) ≠ wInstall := by simp [wHardUpdate, wInstall]
  have n3 : (wHardUpdate : Str) ≠ wRemove := by simp [wHardUpdate, wRemove]
  have n4 : (wSoftUpdate : Str) ≠ wInstall := by simp [wSoftUpdate, wInstall]
  have n5 : (wSoftUpdate : Str) ≠ wRemove := by simp [wSoftUpdate, wRemove]
  have n6 : (wSoftUpdate : Str) ≠ wHardUpdate := by simp [wSoftUpdate, wHardUpdate]
  unfold addOperation
  cases k with
  | upgrade => exact absurd rfl hk
  | install => rw [jobWord, if_pos rfl, this]; rfl
  | remove => rw [jobWord, if_neg n1, if_pos rfl, this]; rfl
  | hardUpdate => rw [jobWord, if_neg n2, if_neg n3, if_pos rfl, this]; rfl
  | softUpdate => rw [jobWord, if_neg n4, if_neg n5, if_neg n6, if_pos rfl, this]; rfl


theorem requestLoop_total : ∀ (es : List Entry) (q : Request Str U) (marked : List Str) (u : Bool),
    (∀ e ∈ es.filter (fun e => !e.updateAll), ∃ j : Job Str U, EntryJob e j) → (∀ j ∈ q.jobs, j.kind ≠ .upgrade) →
    ∃ q' marked' u', requestLoop es q marked u = .ok (q', marked', u') ∧ (∀ j ∈ q'.jobs, j.kind ≠ .upgrade) ∧
      ∀ m ∈ marked', m ∈ marked := by
  intro es
  induction es with
  | nil => intro q marked u _ hq; exact ⟨q, marked, u, rfl, hq, fun _ h => h⟩
  | cons e es ih =>
    intro q marked u h hq
    by_cases hu : e.updateAll = true
    · have ho := of_decide_eq_true hu
      obtain ⟨q', marked', u', h1, h2⟩ := ih q marked true (by
        rw [List.filter_cons_of_neg (by simp [hu])] at h; exact h) hq
      refine ⟨q', marked', u', ?_, h2⟩
      rw [requestLoop, ho]
      simp only [required, if_true]
      exact h1
    · rw [List.filter_cons_of_pos (by simp [hu])] at h
      obtain ⟨j, hj, ho, text, r, h1, h2, h3⟩ := h e (by simp)
      have hw : jobWord j.kind ≠ wUpdateAll := by
        intro hw
        apply hu
        unfold Entry.updateAll
        rw [ho, hw]
        simp
      obtain ⟨q', marked', u', g1, g2, g3⟩ := ih { q with jobs := q.jobs ++ [⟨some r, j.kind⟩] } (marked.erase r.name) u
        (fun e he => h e (by simp [he])) (by
          intro j' hj'
          rw [List.mem_append] at hj'
          rcases hj' with hj' | hj'
          · exact hq j' hj'
          · rw [List.mem_singleton] at hj'; subst hj'; exact hj)
      refine ⟨q', marked', u', ?_, g2, fun m hm => List.mem_of_mem_erase (g3 m hm)⟩
      rw [requestLoop, ho, h1]
      simp only [required]
      rw [if_neg hw, readRequirement_ok.2 h2]
      simp only
      rw [addOperation_total hq r hj]
      exact g1


theorem markedLoop_total : ∀ (k : JobKind), k ≠ .upgrade → ∀ (ms : List Str) (q : Request Str U),
    (∀ m ∈ ms, ∃ r : Requirement Str U, Denotes m r) → (∀ j ∈ q.jobs, j.kind ≠ .upgrade) →
    ∃ q', markedLoop k ms q = .ok q' := by
  intro k hk ms
  induction ms with
  | nil => intro q _ _; exact ⟨q, rfl⟩
  | cons m ms ih =>
    intro q h hq
    obtain ⟨r, hr⟩ := h m (by simp)
    rw [markedLoop, readRequirement_ok.2 hr]
    simp only
    rw [addJob_noUpgrade hq r hk]
    refine ih _ (fun m hm => h m (by simp [hm])) ?_
    intro j' hj'
    rw [List.mem_append] at hj'
    rcases hj' with hj' | hj'
    · exact hq j' hj'
    · rw [List.mem_singleton] at hj'; subst hj'; exact hk


/-- C80: a request made of known operations with readable requirements, known modifiers and readable marks is accepted. -/
theorem C80_accepted (d : Data)
    (hm : ∀ kv ∈ d.modifiers, kv.1 = wNewer ∨ kv.1 = wAny ∨ kv.1 = wOlder)
    (he : ∀ e ∈ d.jobEntries, ∃ j : Job Str U, EntryJob e j) (hk : ∀ m ∈ d.marked, ∃ r : Requirement Str U, Denotes m r) :
    ∃ q : Request Str U, buildRequest d = .ok q := by
  obtain ⟨m, h1⟩ := addModifiers_total d.modifiers Modifiers.empty hm
  obtain ⟨q1, marked, u, h2, h3, h4⟩ := requestLoop_total d.request ⟨m, []⟩ d.marked false he (by simp)
  unfold buildRequest
  rw [h1]
  simp only
  rw [h2]
  simp only
  exact markedLoop_total _ (by split <;> simp) marked q1 (fun m hm => hk m (h4 m hm)) h3

/-! ### C81: the packages and the repositories -/

theorem forall₂_mem {α β : Type} {R : α → β → Prop} {xs : List α} {ys : List β} (h : List.Forall₂ R xs ys) {y : β} (hy : y ∈ ys) :
    ∃ x ∈ xs, R x y := by
  induction h with
  | nil => cases hy
  | cons h1 _ ih =>
    rcases List.mem_cons.1 hy with rfl | hy
    · exact ⟨_, by simp, h1⟩
    · obtain ⟨x, hx, hr⟩ := ih hy
      exact ⟨x, by simp [hx], hr⟩

theorem forall₂_mem' {α β : Type} {R : α → β → Prop} {xs : List α} {ys : List β} (h : List.Forall₂ R xs ys) {x : α} (hx : x ∈ xs) :
    ∃ y ∈ ys, R x y := by
  induction h with
  | nil => cases hx
  | cons h1 _ ih =>
    rcases List.mem_cons.1 hx with rfl | hx
    · exact ⟨_, by simp, h1⟩
    · obtain ⟨y, hy, hr⟩ := ih hx
      exact ⟨y, by simp [hy], hr⟩

theorem lastNamed_unique {ss : List Str} {n : Str} {p q : Package Str (CStr U) U} (hp : LastNamed ss n p) (hq : LastNamed ss n q) :
    p = q := by
  obtain ⟨b, t, a, h1, h2, h3, h4⟩ := hp
  obtain ⟨b', t', a', g1, g2, g3, g4⟩ := hq
  rw [h1, List.append_eq_append_iff] at g1
  rcases g1 with ⟨as, e1, e2⟩ | ⟨bs, e1, e2⟩
  · cases as with
    | nil =>
      simp only [List.nil_append, List.cons.injEq] at e2
      rw [e2.1, g2] at h2
      cases h2
      rfl
    | cons x as =>
      simp only [List.cons_append, List.cons.injEq] at e2
      exact absurd g3 (h4 t' (by rw [e2.2]; simp) q g2)
  · cases bs with
    | nil =>
      simp only [List.nil_append, List.cons.injEq] at e2
      rw [← e2.1, g2] at h2
      cases h2
      rfl
    | cons x bs =>
      simp only [List.cons_append, List.cons.injEq] at e2
      exact absurd h3 (g4 t (by rw [e2.2]; simp) p h2)

theorem parsePackageList_ok (ss : List Str) : ∀ {l : List (Str × Package Str (CStr U) U)}, parsePackageList ss = .ok l →
    List.Forall₂ (fun s (kv : Str × Package Str (CStr U) U) => parseToPackage s = .ok kv.2 ∧ kv.1 = fullName kv.2) ss l := by
  induction ss with
  | nil => intro l h; cases h; exact .nil
  | cons s ss ih =>
    intro l h
    rw [parsePackageList] at h
    cases hp : parseToPackage (U := U) s with
    | error e => rw [hp] at h; cases h
    | ok p =>
      rw [hp] at h
      simp only at h
      cases hl : parsePackageList (U := U) ss with
      | error e => rw [hl] at h; cases h
      | ok l' => rw [hl] at h; cases h; exact .cons ⟨hp, rfl⟩ (ih hl)

theorem fromYaml_ok {d : Data} {sc : Scenario U} (h : fromYaml d = .ok sc) :
    buildRequest d = .ok sc.request ∧ mapE readOperation d.transaction = .ok sc.operations ∧
    mapE readOperation d.pretty = .ok sc.pretty ∧
    ∃ l, parsePackageList d.packages = .ok l ∧ sc.packages = dictOf l ∧ remoteRepository d (dictOf l) = .ok sc.remote ∧
      installedRepository d (dictOf l) = .ok sc.installed := by
  unfold fromYaml at h
  split at h
  · cases h
  next q hq =>
  split at h
  · cases h
  next ops hops =>
  split at h
  · cases h
  next pr hpr =>
  split at h
  · cases h
  next l hl =>
  split at h
  · cases h
  next rem hrem =>
  split at h
  · cases h
  next ins hins =>
  cases h
  exact ⟨hq, hops, hpr, l, hl, rfl, hrem, hins⟩

theorem lastNamed_of {ss : List Str} {l : List (Str × Package Str (CStr U) U)}
    (h : List.Forall₂ (fun s (kv : Str × Package Str (CStr U) U) => parseToPackage s = .ok kv.2 ∧ kv.1 = fullName kv.2) ss l)
    (n : Str) (p : Package Str (CStr U) U) : dget (dictOf l) n = some p ↔ LastNamed ss n p := by
  rw [dget_dictOf]
  have h' := List.forall₂_reverse_iff.2 h
  unfold LastNamed
  have hrev : (∃ before text after, ss = before ++ text :: after ∧ parseToPackage text = .ok p ∧ fullName p = n ∧
      ∀ t ∈ after, ∀ p', parseToPackage (U := U) t = .ok p' → fullName p' ≠ n) ↔
      (∃ before text after, ss.reverse = before ++ text :: after ∧ parseToPackage text = .ok p ∧ fullName p = n ∧
      ∀ t ∈ before, ∀ p', parseToPackage (U := U) t = .ok p' → fullName p' ≠ n) := by
    constructor
    · rintro ⟨b, t, a, rfl, h1, h2, h3⟩
      exact ⟨a.reverse, t, b.reverse, by simp, h1, h2, fun t ht => h3 t (List.mem_reverse.1 ht)⟩
    · rintro ⟨b, t, a, he, h1, h2, h3⟩
      refine ⟨a.reverse, t, b.reverse, ?_, h1, h2, fun t ht => h3 t (List.mem_reverse.1 ht)⟩
      rw [← List.reverse_reverse ss, he]
      simp
  rw [hrev]
  generalize ss.reverse = ss' at h'
  generalize l.reverse = l' at h'
  clear h hrev
  induction h' with
  | nil => simp [dget]
  | @cons s kv ss l hkv _ ih =>
    obtain ⟨h1, h2⟩ := hkv
    rw [dget]
    split
    · next hk =>
      constructor
      · intro hp
        cases hp
        exact ⟨[], s, ss, rfl, h1, by rw [← h2, hk], by simp⟩
      · rintro ⟨b, t, a, he, h3, h4, h5⟩
        cases b with
        | nil =>
          simp only [List.nil_append, List.cons.injEq] at he
          rw [he.1, h3] at h1
          cases h1
          rfl
        | cons x b =>
          simp only [List.cons_append, List.cons.injEq] at he
          exact absurd (by rw [← h2, hk]) (h5 s (by simp [he.1]) kv.2 h1)
    · next hk =>
      refine ih.trans ?_
      constructor
      · rintro ⟨b, t, a, rfl, h3, h4, h5⟩
        refine ⟨s :: b, t, a, rfl, h3, h4, ?_⟩
        intro t' ht'
        rcases List.mem_cons.1 ht' with rfl | ht'
        · intro p' hp'
          rw [h1] at hp'
          cases hp'
          rw [← h2]
          exact hk
        · exact h5 t' ht'
      · rintro ⟨b, t, a, he, h3, h4, h5⟩
        cases b with
        | nil =>
          simp only [List.nil_append, List.cons.injEq] at he
          rw [he.1, h3] at h1
          cases h1
          exact absurd (by rw [h2, h4]) hk
        | cons x b =>
          simp only [List.cons_append, List.cons.injEq] at he
          exact ⟨b, t, a, he.2, h3, h4, fun t ht => h5 t (by simp [ht])⟩

/-- C81: under every full name ("name version") the scenario holds the package of the last text with that full name, and it
holds nothing else. -/
theorem C81_packages {d : Data} {sc : Scenario U} (h : fromYaml d = .ok sc) (n : Str) (p : Package Str (CStr U) U) :
    dget sc.packages n = some p ↔ LastNamed d.packages n p := by
  obtain ⟨-, -, -, l, hl, he, -, -⟩ := fromYaml_ok h
  rw [he]
  exact lastNamed_of (parsePackageList_ok _ hl) n p

theorem repositoryFactory_ok (info : Str) (ref : Dict Str (Package Str (CStr U) U)) (ns : List Str) :
    ∀ {r r' : Repository Str (CStr U) U}, repositoryFactory info ref ns r = .ok r' →
    ∃ ps, r' = r.update ps ∧ List.Forall₂ (fun n p => ∃ p0, dget ref n = some p0 ∧ InRepo info p0 p) ns ps := by
  induction ns with
  | nil => intro r r' h; cases h; exact ⟨[], rfl, .nil⟩
  | cons n ns ih =>
    intro r r' h
    rw [repositoryFactory] at h
    cases hp : dget ref n with
    | none => rw [hp] at h; cases h
    | some p =>
      rw [hp] at h
      obtain ⟨ps, h1, h2⟩ := ih h
      refine ⟨{ p with repo := some info } :: ps, h1, .cons ⟨p, hp, rfl, rfl, rfl, rfl, rfl, rfl⟩ h2⟩

/-- C81: the remote repository holds, for every full name listed under `remote` (by default, for every full name that
occurs), the package of that full name; the installed repository those listed under `installed`. They are marked as
belonging to the repository "remote" or "installed"; besides that they are as their texts say. A name that is listed twice
is there twice. -/
theorem C81_repositories {d : Data} {sc : Scenario U} (h : fromYaml d = .ok sc) :
    (∃ names ps, sc.remote = Repository.ofList ps ∧ sc.remote.iter.Perm ps ∧
      List.Forall₂ (fun n p => ∃ p0, LastNamed d.packages n p0 ∧ InRepo "remote".toList p0 p) names ps ∧
      match d.remote with
      | some listed => names = listed
      | none => names.Nodup ∧ ∀ n, n ∈ names ↔ ∃ p, LastNamed (U := U) d.packages n p) ∧
    ∃ ps, sc.installed = Repository.ofList ps ∧ sc.installed.iter.Perm ps ∧
      List.Forall₂ (fun n p => ∃ p0, LastNamed d.packages n p0 ∧ InRepo "installed".toList p0 p) d.installed ps := by
  obtain ⟨-, -, -, l, hl, -, hrem, hins⟩ := fromYaml_ok h
  have hlast := lastNamed_of (parsePackageList_ok _ hl)
  obtain ⟨ps, h1, h2⟩ := repositoryFactory_ok _ _ _ hrem
  obtain ⟨ps', h1', h2'⟩ := repositoryFactory_ok _ _ _ hins
  simp only [hlast] at h2 h2'
  have e1 : sc.remote = Repository.ofList ps := h1
  have e2 : sc.installed = Repository.ofList ps' := h1'
  refine ⟨⟨_, ps, e1, ?_, h2, ?_⟩, ps', e2, ?_, h2'⟩
  · rw [e1]; exact (C30_iteration ps).1
  · cases d.remote with
    | some listed => rfl
    | none =>
      refine ⟨nodup_dkeys_dictOf l, ?_⟩
      intro n
      show n ∈ dkeys (dictOf l) ↔ _
      rw [mem_dkeys_iff]
      simp only [hlast]
  · rw [e2]; exact (C30_iteration ps').1

/-- C81 (partial): a scenario without "remote" whose texts are those of packages with distinct full names offers exactly
these packages, one for each text. What is missing: two texts with the same full name, of which the first one is lost, see
`C81_violated_lost`. -/
theorem C81_all_offered_partial {d : Data} {sc : Scenario U} (h : fromYaml d = .ok sc) (hr : d.remote = none)
    (hd : d.packages.Pairwise (fun s t => ∀ p q, parseToPackage (U := U) s = .ok p → parseToPackage (U := U) t = .ok q →
      fullName p ≠ fullName q)) :
    ∃ ps, sc.remote.iter.Perm ps ∧
      List.Forall₂ (fun s p => ∃ p0, parseToPackage s = .ok p0 ∧ InRepo "remote".toList p0 p) d.packages ps := by
  obtain ⟨⟨names, ps, -, h1, h2, h3⟩, -⟩ := C81_repositories h
  rw [hr] at h3
  obtain ⟨hnd, hmem⟩ := h3
  obtain ⟨-, -, -, l, hl, -⟩ := fromYaml_ok h
  replace hl := parsePackageList_ok _ hl
  have hkeys : (dkeys l).Nodup := by
    unfold dkeys
    rw [List.nodup_iff_pairwise_ne, List.pairwise_map]
    generalize d.packages = ss at hd hl
    clear h h1 h2 hnd hmem
    induction hl with
    | nil => exact .nil
    | cons hkv hrest ih =>
      rw [List.pairwise_cons] at hd ⊢
      refine ⟨?_, ih hd.2⟩
      intro kv' hkv'
      obtain ⟨t, ht, h1, h2⟩ := forall₂_mem hrest hkv'
      rw [hkv.2, h2]
      exact hd.1 t ht _ _ hkv.1 h1
  have hperm : (dkeys l).Perm names := by
    refine (List.perm_ext_iff_of_nodup hkeys hnd).2 ?_
    intro n
    rw [hmem n]
    constructor
    · intro hn
      obtain ⟨v, hv⟩ := (mem_dkeys_iff (dictOf l) n).1 ((mem_dkeys_dictOf l n).2 (by
        unfold dkeys at hn
        obtain ⟨⟨k, v⟩, hkv, rfl⟩ := List.mem_map.1 hn
        exact ⟨v, hkv⟩))
      exact ⟨v, (lastNamed_of hl n v).1 hv⟩
    · rintro ⟨p, hp⟩
      have := dget_dictOf_some ((lastNamed_of hl n p).2 hp)
      exact List.mem_map.2 ⟨_, this, rfl⟩
  obtain ⟨ps', h4, h5⟩ := List.perm_comp_forall₂ hperm h2
  refine ⟨ps', h1.trans h5.symm, ?_⟩
  have hall : ∀ t ∈ d.packages, ∀ p, parseToPackage (U := U) t = .ok p → LastNamed d.packages (fullName p) p := by
    intro t ht p hp
    obtain ⟨b, a, hba⟩ := List.append_of_mem ht
    refine ⟨b, t, a, hba, hp, rfl, ?_⟩
    intro t' ht' p' hp'
    rw [hba, List.pairwise_append] at hd
    exact fun e => (List.pairwise_cons.1 hd.2.1).1 t' ht' _ _ hp hp' e.symm
  have go : ∀ {ss : List Str} {l : List (Str × Package Str (CStr U) U)} {qs : List (Package Str (CStr U) U)},
      (∀ s ∈ ss, s ∈ d.packages) →
      List.Forall₂ (fun s (kv : Str × Package Str (CStr U) U) => parseToPackage s = .ok kv.2 ∧ kv.1 = fullName kv.2) ss l →
      List.Forall₂ (fun n p => ∃ p0, LastNamed d.packages n p0 ∧ InRepo "remote".toList p0 p) (dkeys l) qs →
      List.Forall₂ (fun s p => ∃ p0, parseToPackage s = .ok p0 ∧ InRepo "remote".toList p0 p) ss qs := by
    intro ss l qs hss h1
    induction h1 generalizing qs with
    | nil => intro h2; cases h2; exact .nil
    | cons hkv _ ih =>
      intro h2
      cases h2 with
      | cons hq hqs =>
        refine .cons ?_ (ih (fun s hs => hss s (by simp [hs])) hqs)
        obtain ⟨p0, hp0, hi⟩ := hq
        refine ⟨p0, ?_, hi⟩
        have := hall _ (hss _ (by simp)) _ hkv.1
        rw [← hkv.2] at this
        rw [lastNamed_unique hp0 this]
        exact hkv.1
  exact go (fun s hs => hs) hl h4

/-! ### C82: the expected operations -/

theorem readOperation_ok {t : TEntry} {o : Solve.Op Str (CStr U) U} : readOperation t = .ok o ↔ EntryOp t o := by
  have hread : ∀ {s : Option Str} {p : Package Str (CStr U) U}, readPackage s = .ok p ↔ ∃ x, s = some x ∧ parseToPackage x = .ok p := by
    intro s p
    unfold readPackage
    cases s with
    | none => simp [required]
    | some x =>
      simp only [required, Option.some.injEq, exists_eq_left']
      cases parseToPackage (U := U) x <;> simp [Scn.liftP]
  have n1 : (wUpdate : Str) ≠ wInstall := by simp [wUpdate, wInstall]
  have n2 : (wRemove : Str) ≠ wInstall := by simp [wRemove, wInstall]
  have n3 : (wRemove : Str) ≠ wUpdate := by simp [wRemove, wUpdate]
  unfold readOperation EntryOp
  cases hk : t.kind with
  | none => cases o <;> simp [required]
  | some k =>
    simp only [required, Option.some.injEq]
    by_cases h1 : k = wInstall
    · subst h1
      rw [if_pos rfl]
      cases hp : readPackage (U := U) t.package with
      | error x =>
        cases o with
        | install p => simp only [reduceCtorEq, true_and, false_iff]; rw [← hread, hp]; simp
        | remove p => simp [n2.symm]
        | update p p' => simp [n1.symm]
      | ok q =>
        cases o with
        | install p => simp only [Except.ok.injEq, Solve.Op.install.injEq, true_and]; rw [← hread, hp]; simp
        | remove p => simp [n2.symm]
        | update p p' => simp [n1.symm]
    · rw [if_neg h1]
      by_cases h2 : k = wUpdate
      · subst h2
        rw [if_pos rfl]
        cases hp : readPackage (U := U) t.target with
        | error x =>
          cases o with
          | install p => simp [h1]
          | remove p => simp [n3.symm]
          | update p p' => simp only [reduceCtorEq, true_and, false_iff]; rw [← hread, hp]; simp
        | ok q =>
          simp only
          cases hs : readPackage (U := U) t.source with
          | error x =>
            cases o with
            | install p => simp [h1]
            | remove p => simp [n3.symm]
            | update p p' => simp only [reduceCtorEq, true_and, false_iff]; rw [← hread, ← hread, hs]; simp
          | ok q' =>
            cases o with
            | install p => simp [h1]
            | remove p => simp [n3.symm]
            | update p p' =>
              simp only [Except.ok.injEq, Solve.Op.update.injEq, true_and]
              rw [← hread, ← hread, hp, hs]
              simp
      · rw [if_neg h2]
        by_cases h3 : k = wRemove
        · subst h3
          rw [if_pos rfl]
          cases hp : readPackage (U := U) t.package with
          | error x =>
            cases o with
            | remove p => simp only [reduceCtorEq, true_and, false_iff]; rw [← hread, hp]; simp
            | install p => simp [h1]
            | update p p' => simp [h2]
          | ok q =>
            cases o with
            | remove p => simp only [Except.ok.injEq, Solve.Op.remove.injEq, true_and]; rw [← hread, hp]; simp
            | install p => simp [h1]
            | update p p' => simp [h2]
        · rw [if_neg h3]
          cases o <;> simp [h1, h2, h3]

theorem mapE_forall₂ {α β ε : Type} {f : α → Except ε β} : ∀ {xs : List α} {l : List β}, mapE f xs = .ok l →
    List.Forall₂ (fun x y => f x = .ok y) xs l := by
  intro xs
  induction xs with
  | nil => intro l h; cases h; exact .nil
  | cons x xs ih =>
    intro l h
    rw [mapE_cons_ok] at h
    obtain ⟨y, ys, h1, h2, rfl⟩ := h
    exact .cons h1 (ih h2)

/-- C82: the operations of a scenario are those of its lists, one for one, in their order. -/
theorem C82_operations {d : Data} {sc : Scenario U} (h : fromYaml d = .ok sc) :
    List.Forall₂ EntryOp d.transaction sc.operations ∧ List.Forall₂ EntryOp d.pretty sc.pretty := by
  obtain ⟨-, h1, h2, -⟩ := fromYaml_ok h
  exact ⟨(mapE_forall₂ h1).imp (fun _ _ => readOperation_ok.1), (mapE_forall₂ h2).imp (fun _ _ => readOperation_ok.1)⟩

/-! ### C83: solving a scenario -/

theorem scenario_solver_ok {sc : Scenario U} {s : DependencySolver Str (CStr U) U} (h : sc.solver = .ok s) :
    (∃ m, Built [sc.remote, sc.installed] m s.pool) ∧ s.installed = sc.installed ∧ s.remote = [sc.remote] ∧
      s.usePruning = true ∧ s.strict = false := by
  unfold Scenario.solver at h
  split at h
  · cases h
  · next pool hp =>
    cases h
    exact ⟨⟨pool.modifiers, none, pool, hp, rfl⟩, rfl, rfl, rfl, rfl⟩

/-- every package of a scenario is the one of its full name, marked with its repository -/
theorem scenario_source {d : Data} {sc : Scenario U} (h : fromYaml d = .ok sc) {p : Package Str (CStr U) U}
    (hp : p ∈ allPackages [sc.remote, sc.installed]) :
    ∃ p0, LastNamed d.packages (fullName p) p0 ∧
      (p ∈ sc.remote.iter ∧ InRepo "remote".toList p0 p ∨ p ∈ sc.installed.iter ∧ InRepo "installed".toList p0 p) := by
  obtain ⟨⟨names, ps, e1, h1, h2, -⟩, ps', e2, h3, h4⟩ := C81_repositories h
  have full : ∀ {n : Str} {info : Str} {p0 : Package Str (CStr U) U}, LastNamed d.packages n p0 → InRepo info p0 p →
      LastNamed d.packages (fullName p) p0 := by
    intro n info p0 hl hi
    obtain ⟨-, -, -, -, -, hn, -⟩ := id hl
    have : fullName p = n := by rw [← hn]; unfold fullName; rw [hi.1, hi.2.1]
    rw [this]; exact hl
  simp only [allPackages, List.flatMap_cons, List.flatMap_nil, List.append_nil, List.mem_append] at hp
  rcases hp with hp | hp
  · obtain ⟨n, -, p0, hl, hi⟩ := forall₂_mem h2 (h1.mem_iff.1 hp)
    exact ⟨p0, full hl hi, Or.inl ⟨hp, hi⟩⟩
  · obtain ⟨n, -, p0, hl, hi⟩ := forall₂_mem h4 (h3.mem_iff.1 hp)
    exact ⟨p0, full hl hi, Or.inr ⟨hp, hi⟩⟩

theorem scenario_solver {d : Data} {sc : Scenario U} (h : fromYaml d = .ok sc) {s : DependencySolver Str (CStr U) U}
    (hs : sc.solver = .ok s) : SolverFor [sc.remote, sc.installed] s := by
  obtain ⟨h1, h2, -⟩ := scenario_solver_ok hs
  obtain ⟨-, ps', e2, -⟩ := C81_repositories h
  exact ⟨h1, ps', by rw [h2, e2]⟩

theorem scenario_metadata {d : Data} {sc : Scenario U} (h : fromYaml d = .ok sc) {s : DependencySolver Str (CStr U) U}
    (hs : sc.solver = .ok s) : SameMetadata (allPackages [sc.remote, sc.installed]) (InstalledKeys s) := by
  obtain ⟨-, hinst, -⟩ := scenario_solver_ok hs
  have hav : ∀ p ∈ s.installed.iter, p ∈ allPackages [sc.remote, sc.installed] := by
    intro p hp
    rw [hinst] at hp
    simp [allPackages, hp]
  have eqs : ∀ {p q p0 q0 : Package Str (CStr U) U} , LastNamed d.packages (fullName p) p0 → LastNamed d.packages (fullName q) q0 →
      SameNameVersion p.key q.key → p0 = q0 := by
    intro p q p0 q0 hp hq he
    have : fullName p = fullName q := by
      unfold fullName
      have h1 : p.name = q.name := he.1
      have h2 : p.version = q.version := he.2
      rw [h1, h2]
    rw [this] at hp
    exact lastNamed_unique hp hq
  have hrepo : ("remote".toList : Str) ≠ "installed".toList := by simp
  constructor
  · rintro k k' ⟨p, hp, rfl⟩ ⟨q, hq, rfl⟩ he
    obtain ⟨⟨names, ps, e1, h1, h2, -⟩, ps', e2, h3, h4⟩ := C81_repositories h
    rw [hinst] at hp hq
    obtain ⟨n, -, p0, hl, hi⟩ := forall₂_mem h4 (h3.mem_iff.1 hp)
    obtain ⟨n', -, q0, hl', hi'⟩ := forall₂_mem h4 (h3.mem_iff.1 hq)
    have hn : n = n' := by
      obtain ⟨-, -, -, -, -, e, -⟩ := id hl
      obtain ⟨-, -, -, -, -, e', -⟩ := id hl'
      rw [← e, ← e']
      unfold fullName
      have h1 : p.name = q.name := he.1
      have h2 : p.version = q.version := he.2
      rw [← hi.1, ← hi.2.1, ← hi'.1, ← hi'.2.1, h1, h2]
    subst hn
    have := lastNamed_unique hl hl'
    subst this
    obtain ⟨a1, a2, a3, a4, a5, a6⟩ := hi
    obtain ⟨b1, b2, b3, b4, b5, b6⟩ := hi'
    simp only [Package.key, PKey.mk.injEq]
    exact ⟨a1.trans b1.symm, a2.trans b2.symm, a3.trans b3.symm, a4.trans b4.symm, a6.trans b6.symm⟩
  · intro p hp q hq _ he
    obtain ⟨p0, hl, hp0⟩ := scenario_source h hp
    obtain ⟨q0, hl', hq0⟩ := scenario_source h hq
    have := eqs hl hl' he
    subst this
    have hp' : ∃ info, InRepo info p0 p := by rcases hp0 with ⟨-, hi⟩ | ⟨-, hi⟩ <;> exact ⟨_, hi⟩
    have hq' : ∃ info, InRepo info p0 q := by rcases hq0 with ⟨-, hi⟩ | ⟨-, hi⟩ <;> exact ⟨_, hi⟩
    obtain ⟨_, a1, a2, a3, a4, a5, a6⟩ := hp'
    obtain ⟨_, b1, b2, b3, b4, b5, b6⟩ := hq'
    refine ⟨a3.trans b3.symm, a4.trans b4.symm, ?_⟩
    intro n
    unfold Provides
    rw [a1, b1, a5, b5]

theorem scenario_jobs {d : Data} {sc : Scenario U} (h : fromYaml d = .ok sc) (s : DependencySolver Str (CStr U) U) :
    effectiveJobs s sc.request = sc.request.jobs := by
  obtain ⟨hq, -⟩ := fromYaml_ok h
  obtain ⟨listed, kept, rest, h1, h2, h3, -⟩ := request_ok hq
  have hno : ∀ j ∈ sc.request.jobs, j.kind ≠ .upgrade := by
    intro j hj
    rw [h1, List.mem_append] at hj
    rcases hj with hj | hj
    · obtain ⟨e, -, he⟩ := forall₂_mem h2 hj
      exact he.1
    · obtain ⟨m, -, hm⟩ := forall₂_mem h3 hj
      rw [hm.1]
      split <;> simp
  unfold effectiveJobs convertUpgrade
  split
  · next j hj => rw [if_neg (hno j (by rw [hj]; simp))]
  · rfl

/-- C83: after the transaction found for a scenario, every operation of its request is satisfied, and so is the job of every
mark that is not the name of a requested package. (The solver is the one with the pool of the remote and the installed
packages, as the tests build it.) -/
theorem C83_jobs_satisfied {d : Data} {sc : Scenario U} (h : fromYaml d = .ok sc) {s : DependencySolver Str (CStr U) U}
    (hs : sc.solver = .ok s) {o : Orders} {t : Transaction Str (CStr U) U} (ht : s.solve o sc.request = .ok t) :
    (∀ e ∈ d.jobEntries, ∃ j, EntryJob e j ∧
      JobSatisfied (allPackages [sc.remote, sc.installed]) (InstalledKeys s) (Result s t) j) ∧
    (∀ m ∈ d.marked, ¬ Asked U d m → ∃ j, MarkJob d m j ∧
      JobSatisfied (allPackages [sc.remote, sc.installed]) (InstalledKeys s) (Result s t) j) := by
  have hsat := fun j hj => C41_jobs_satisfied (scenario_solver h hs) ht (scenario_metadata h hs) (j := j) hj
  rw [scenario_jobs h] at hsat
  obtain ⟨hq, -⟩ := fromYaml_ok h
  obtain ⟨listed, kept, rest, h1, h2, h3, hr, -⟩ := request_ok hq
  constructor
  · intro e he
    obtain ⟨j, hj, hej⟩ := forall₂_mem' h2 he
    exact ⟨j, hej, hsat j (by rw [h1]; simp [hj])⟩
  · intro m hm hna
    have : m ∈ rest := by
      rw [← asked_iff h2] at hna
      rw [hr, ← List.count_pos_iff, erase_count, List.count_eq_zero.2 hna]
      have := List.count_pos_iff.2 hm
      omega
    obtain ⟨j, hj, hmj⟩ := forall₂_mem' h3 this
    exact ⟨j, hmj, hsat j (by rw [h1]; simp [hj])⟩

/-- C83: a scenario is reported as unsatisfiable only if no valid installation exists for its request; and a transaction is
found only if one exists. -/
theorem C83_decides {d : Data} {sc : Scenario U} (h : fromYaml d = .ok sc) {s : DependencySolver Str (CStr U) U}
    (hs : sc.solver = .ok s) (o : Orders) :
    ((∃ t, s.solve o sc.request = .ok t) → ∃ I, ValidInstall (allPackages [sc.remote, sc.installed]) (some sc.request.modifiers)
      (InstalledKeys s) sc.request.jobs I) ∧
    ((∃ u, s.solve o sc.request = .error (.sat (.satisfiability u))) → ¬ ∃ I,
      ValidInstall (allPackages [sc.remote, sc.installed]) (some sc.request.modifiers) (InstalledKeys s) sc.request.jobs I) := by
  have hd := C40_decides (scenario_solver h hs) o sc.request
  unfold Solves at hd
  rw [scenario_jobs h] at hd
  constructor
  · rintro ⟨t, ht⟩
    rw [ht] at hd
    exact hd
  · rintro ⟨u, hu⟩
    rw [hu] at hd
    exact hd

/-- C83 (partial): the packages after the transaction form a valid installation for the scenario, if no package provides a
name but its own and a removal concerns a package of an installed name or all the versions of its package. What is missing:
the property fails without these conditions (C41). -/
theorem C83_valid_installation_partial {d : Data} {sc : Scenario U} (h : fromYaml d = .ok sc)
    {s : DependencySolver Str (CStr U) U} (hs : sc.solver = .ok s) {o : Orders} {t : Transaction Str (CStr U) U}
    (ht : s.solve o sc.request = .ok t) (hP : PlainNames (allPackages [sc.remote, sc.installed]))
    (hr : ∀ j ∈ sc.request.jobs, j.kind = .remove → ∀ r, j.requirement = some r →
      (∃ k, InstalledKeys s k ∧ k.name = r.name) ∨
        ∀ p ∈ allPackages [sc.remote, sc.installed], p.name = r.name → MeetsJob r p) :
    ValidInstall (allPackages [sc.remote, sc.installed]) (some sc.request.modifiers) (InstalledKeys s) sc.request.jobs
      (Result s t) := by
  obtain ⟨-, -, -, hu, -⟩ := scenario_solver_ok hs
  have := C41_valid_installation_plain_partial (scenario_solver h hs) ht hu hP (by rw [scenario_jobs h]; exact hr)
    (scenario_metadata h hs)
  unfold Solves at this
  rw [scenario_jobs h] at this
  exact this

end Verif.Props
