import Verif.Props.Monotone
/-
Property C122: what is installed when the operations of a transaction have been carried out only in part.
-/
namespace Verif.Props
open Verif Verif.Pkg Verif.Solve Verif.Rules

variable {N S U : Type} [LinearOrder N] [DecidableEq S] [LinearOrder U] [Syntax S U]
variable {rs rs' : List (Repository N S U)} {s s' : DependencySolver N S U}

/-- What is installed after the first `n` operations -/
def InstalledAfter (s : DependencySolver N S U) (t : Transaction N S U) (n : Nat) : PKey N S U → Prop :=
  Apply (t.operations.take n) (InstalledKeys s)

/-- The package is there before and after the transaction -/
def KeptPackage (s : DependencySolver N S U) (t : Transaction N S U) (k : PKey N S U) : Prop := InstalledKeys s k ∧ Result s t k

/-- `s'` is a solver like `s`, made after the first `n` operations of `t` were carried out: these packages are installed, whatever
`t` leads to is available, and nothing is available that was not -/
structure StoppedAfter (rs : List (Repository N S U)) (s : DependencySolver N S U) (t : Transaction N S U) (n : Nat)
    (rs' : List (Repository N S U)) (s' : DependencySolver N S U) : Prop where
  installed : ∀ k, InstalledKeys s' k ↔ InstalledAfter s t n k
  present : ∀ k, Result s t k → ∃ p ∈ allPackages rs', p.key = k
  known : ∀ p' ∈ allPackages rs', ∃ p ∈ allPackages rs, p.key = p'.key
  same : ∀ p ∈ allPackages rs, ∀ p' ∈ allPackages rs', p.key = p'.key → ∀ n, Provides p n ↔ Provides p' n

/-! ## Lists -/

theorem sublist_take {α : Type} {l : List α} (hn : l.Nodup) {a b : α} (h : [a, b].Sublist l) {m : Nat} (hb : b ∈ l.take m) : a ∈ l.take m := by
  rw [← List.take_append_drop m l] at h hn
  obtain ⟨l1, l2, e, h1, h2⟩ := List.sublist_append_iff.1 h
  have hd := List.nodup_append.1 hn
  cases l1 with
  | nil =>
    rw [List.nil_append] at e
    exact absurd rfl (hd.2.2 b hb b (h2.subset (by rw [← e]; simp)))
  | cons x l1 =>
    rw [List.cons_append, List.cons.injEq] at e
    rw [e.1]
    exact h1.subset (by simp)

theorem sublist_drop {α : Type} {l : List α} (hn : l.Nodup) {a b : α} (h : [a, b].Sublist l) {m : Nat} (ha : a ∉ l.take m) : b ∉ l.take m :=
  fun hb => ha (sublist_take hn h hb)

theorem nodup_of_map {α β : Type} (f : α → β) : ∀ {l : List α}, (l.map f).Nodup → l.Nodup
  | [], _ => List.nodup_nil
  | a :: l, h => by
    rw [List.map_cons, List.nodup_cons] at h
    exact List.nodup_cons.2 ⟨fun ha => h.1 (List.mem_map_of_mem ha), nodup_of_map f h.2⟩

/-! ## The two phases -/

theorem removedBy_split (rem ins : List (Package N S U)) (k : PKey N S U) :
    RemovedBy (rem.map .remove ++ ins.map .install) k ↔ ∃ p ∈ rem, p.key = k := by
  unfold RemovedBy
  constructor
  · rintro ⟨o, ho, hm⟩
    rcases List.mem_append.1 ho with ho | ho
    · obtain ⟨p, hp, rfl⟩ := List.mem_map.1 ho
      exact ⟨p, hp, hm⟩
    · obtain ⟨p, hp, rfl⟩ := List.mem_map.1 ho
      exact hm.elim
  · rintro ⟨p, hp, hk⟩
    exact ⟨.remove p, List.mem_append_left _ (List.mem_map.2 ⟨p, hp, rfl⟩), hk⟩

theorem installedBy_split (rem ins : List (Package N S U)) (k : PKey N S U) :
    InstalledBy (rem.map .remove ++ ins.map .install) k ↔ ∃ p ∈ ins, p.key = k := by
  unfold InstalledBy
  constructor
  · rintro ⟨o, ho, hm⟩
    rcases List.mem_append.1 ho with ho | ho
    · obtain ⟨p, hp, rfl⟩ := List.mem_map.1 ho
      exact hm.elim
    · obtain ⟨p, hp, rfl⟩ := List.mem_map.1 ho
      exact ⟨p, hp, hm⟩
  · rintro ⟨p, hp, hk⟩
    exact ⟨.install p, List.mem_append_right _ (List.mem_map.2 ⟨p, hp, rfl⟩), hk⟩

/-- the operations of a transaction that solve returns -/
structure Phases (rs : List (Repository N S U)) (s : DependencySolver N S U) (q : Request N U) (t : Transaction N S U)
    (rem ins : List (Package N S U)) : Prop where
  ops : t.operations = rem.map .remove ++ ins.map .install
  wasThere : ∀ p ∈ rem, InstalledKeys s p.key
  wasNot : ∀ p ∈ ins, ¬ InstalledKeys s p.key
  nodupRem : (rem.map Package.key).Nodup
  nodupIns : (ins.map Package.key).Nodup
  orderIns : ∀ p ∈ ins, ∀ r ∈ ins, p.key ≠ r.key → DependsOn (allPackages rs) (some q.modifiers) p.key r.key → [r, p].Sublist ins
  orderRem : ∀ p ∈ rem, ∀ r ∈ rem, p.key ≠ r.key → DependsOn (allPackages rs) (some q.modifiers) p.key r.key → [p, r].Sublist rem

theorem phases (hs : SolverFor rs s) {o : Orders} {q : Request N U} {t : Transaction N S U} (h : s.solve o q = .ok t) :
    ∃ rem ins, Phases rs s q t rem ins := by
  obtain ⟨pool, st, a, installed, D, hc, -, ht⟩ := solve_ok hs h
  obtain ⟨rem, ins, h1, h2, h3, h4, h5, h6⟩ := C44_operations_well_formed hc.built hc.decisions hc.hI ht
  simp only [hc.installed_eq] at h2 h3
  simp only [dependsOn_active] at h5 h6
  rw [List.map_append, List.nodup_append] at h4
  exact ⟨rem, ins, h1, fun p hp => (h2 p hp).1, fun p hp => (h3 p hp).1, h4.1, h4.2.1, h5, h6⟩

section
variable {q : Request N U} {t : Transaction N S U} {rem ins : List (Package N S U)}

theorem Phases.state (hp : Phases rs s q t rem ins) (n : Nat) (k : PKey N S U) :
    InstalledAfter s t n k ↔ (InstalledKeys s k ∧ ¬ ∃ p ∈ rem.take n, p.key = k) ∨ ∃ p ∈ ins.take (n - rem.length), p.key = k := by
  unfold InstalledAfter Apply
  have : t.operations.take n = (rem.take n).map .remove ++ (ins.take (n - rem.length)).map .install := by
    rw [hp.ops, List.take_append, List.length_map, List.map_take, List.map_take]
  rw [this, removedBy_split, installedBy_split]

theorem Phases.result (hp : Phases rs s q t rem ins) (k : PKey N S U) :
    Result s t k ↔ (InstalledKeys s k ∧ ¬ ∃ p ∈ rem, p.key = k) ∨ ∃ p ∈ ins, p.key = k := by
  unfold Result Apply
  rw [hp.ops, removedBy_split, installedBy_split]

theorem Phases.kept (hp : Phases rs s q t rem ins) {k : PKey N S U} (hk : KeptPackage s t k) (n : Nat) : InstalledAfter s t n k := by
  rw [hp.state]
  left
  refine ⟨hk.1, ?_⟩
  rintro ⟨p, hm, e⟩
  rcases (hp.result k).1 hk.2 with h | ⟨p', hp', e'⟩
  · exact h.2 ⟨p, List.mem_of_mem_take hm, e⟩
  · exact hp.wasNot p' hp' (by rw [e']; exact hk.1)

end

/-! ## The theorems -/

/-- C122: nothing is done before the first operation; after the last one the transaction is carried out -/
theorem C122_first_and_last (s : DependencySolver N S U) (t : Transaction N S U) (k : PKey N S U) :
    (InstalledAfter s t 0 k ↔ InstalledKeys s k) ∧ (InstalledAfter s t t.operations.length k ↔ Result s t k) := by
  constructor
  · unfold InstalledAfter Apply RemovedBy InstalledBy
    simp
  · unfold InstalledAfter Result
    rw [List.take_length]

/-- C122: wherever the transaction is interrupted, the packages that are there all were there before, or all are there in the
end; and the packages that are kept are there all the time. -/
theorem C122_between (hs : SolverFor rs s) {o : Orders} {q : Request N U} {t : Transaction N S U} (h : s.solve o q = .ok t) (n : Nat) :
    ((∀ k, InstalledAfter s t n k → InstalledKeys s k) ∨ (∀ k, InstalledAfter s t n k → Result s t k)) ∧ ∀ k, KeptPackage s t k → InstalledAfter s t n k := by
  obtain ⟨rem, ins, hp⟩ := phases hs h
  refine ⟨?_, fun k hk => hp.kept hk n⟩
  rcases Nat.le_total n rem.length with hn | hn
  · left
    intro k hk
    rw [hp.state, Nat.sub_eq_zero_of_le hn] at hk
    rcases hk with hk | ⟨p, hm, -⟩
    · exact hk.1
    · simp at hm
  · right
    intro k hk
    rw [hp.state, List.take_of_length_le hn] at hk
    rw [hp.result]
    exact hk.imp id (fun ⟨p, hm, e⟩ => ⟨p, List.mem_of_mem_take hm, e⟩)

/-- C122: if what is installed and what the transaction leads to are in order, then wherever the transaction is interrupted, there is
one package per name and no declared conflict -/
theorem C122_no_clash (hs : SolverFor rs s) {o : Orders} {q : Request N U} {t : Transaction N S U} (h : s.solve o q = .ok t)
    (h0 : Consistent (allPackages rs) (some q.modifiers) (InstalledKeys s))
    (h1 : Consistent (allPackages rs) (some q.modifiers) (Result s t)) (n : Nat) :
    (∀ k, InstalledAfter s t n k → ∃ p ∈ allPackages rs, p.key = k) ∧
    (∀ k k', InstalledAfter s t n k → InstalledAfter s t n k' → k.name = k'.name → k = k') ∧
    ∀ k, InstalledAfter s t n k → ∀ d ∈ k.conflicts, ∀ p ∈ allPackages rs, InstalledAfter s t n p.key → p.key ≠ k → ¬ MeetsConflict (some q.modifiers) d p := by
  rcases (C122_between hs h n).1 with hb | hb
  · exact ⟨fun k hk => h0.available k (hb k hk), fun k k' hk hk' => h0.names k k' (hb k hk) (hb k' hk'),
      fun k hk d hd p hp hpk => h0.conflicts k (hb k hk) d hd p hp (hb _ hpk)⟩
  · exact ⟨fun k hk => h1.available k (hb k hk), fun k k' hk hk' => h1.names k k' (hb k hk) (hb k' hk'),
      fun k hk d hd p hp hpk => h1.conflicts k (hb k hk) d hd p hp (hb _ hpk)⟩

/-- C122: if what is installed and what the transaction leads to are in order, then wherever the transaction is interrupted, a
dependency of a package that is there is met by a package that is there, unless it is a dependency of a package that is kept, and
was met by a package that is removed and will be met by one that is installed. So a package that is about to be removed, and one
that was just installed, is never left without what it depends on. -/
theorem C122_dependencies_met_or_replaced (hs : SolverFor rs s) {o : Orders} {q : Request N U} {t : Transaction N S U} (h : s.solve o q = .ok t)
    (h0 : Consistent (allPackages rs) (some q.modifiers) (InstalledKeys s))
    (h1 : Consistent (allPackages rs) (some q.modifiers) (Result s t)) (n : Nat) {k : PKey N S U} (hk : InstalledAfter s t n k)
    {d : CTuple N S} (hd : d ∈ k.installRequires) :
    (∃ p ∈ allPackages rs, InstalledAfter s t n p.key ∧ p.key ≠ k ∧ MeetsDep (some q.modifiers) d p) ∨
    (KeptPackage s t k ∧
      (∃ p ∈ allPackages rs, InstalledKeys s p.key ∧ ¬ Result s t p.key ∧ MeetsDep (some q.modifiers) d p) ∧
      (∃ p ∈ allPackages rs, Result s t p.key ∧ ¬ InstalledKeys s p.key ∧ MeetsDep (some q.modifiers) d p)) := by
  obtain ⟨rem, ins, hp⟩ := phases hs h
  have nr : rem.Nodup := nodup_of_map _ hp.nodupRem
  have ni : ins.Nodup := nodup_of_map _ hp.nodupIns
  by_cases hi : InstalledKeys s k
  · obtain ⟨p, hpa, hpi, hpn, hpm⟩ := h0.deps k hi d hd
    by_cases hr : Result s t k
    · obtain ⟨p', hpa', hpi', hpn', hpm'⟩ := h1.deps k hr d hd
      by_cases c1 : Result s t p.key
      · exact Or.inl ⟨p, hpa, hp.kept ⟨hpi, c1⟩ n, hpn, hpm⟩
      · by_cases c2 : InstalledKeys s p'.key
        · exact Or.inl ⟨p', hpa', hp.kept ⟨c2, hpi'⟩ n, hpn', hpm'⟩
        · exact Or.inr ⟨⟨hi, hr⟩, ⟨p, hpa, hpi, c1, hpm⟩, ⟨p', hpa', hpi', c2, hpm'⟩⟩
    · -- k is going to be removed
      left
      refine ⟨p, hpa, ?_, hpn, hpm⟩
      rw [hp.state]
      left
      refine ⟨hpi, ?_⟩
      rintro ⟨x, hx, hxk⟩
      have hkrem : ∃ y ∈ rem, y.key = k := by
        by_contra hno
        exact hr ((hp.result k).2 (Or.inl ⟨hi, hno⟩))
      obtain ⟨y, hy, hyk⟩ := hkrem
      have hord := hp.orderRem y hy x (List.mem_of_mem_take hx) (by rw [hyk, hxk]; exact fun e => hpn e.symm)
        ⟨d, by rw [hyk]; exact hd, p, hpa, hxk.symm, hpm⟩
      have hyn : y ∉ rem.take n := by
        intro hy'
        rcases (hp.state n k).1 hk with ⟨-, hno⟩ | ⟨z, hz, hzk⟩
        · exact hno ⟨y, hy', hyk⟩
        · exact hp.wasNot z (List.mem_of_mem_take hz) (by rw [hzk]; exact hi)
      exact sublist_drop nr hord hyn hx
  · -- k has been installed
    left
    rcases (hp.state n k).1 hk with ⟨hno, -⟩ | ⟨y, hy, hyk⟩
    · exact absurd hno hi
    · have hyi := List.mem_of_mem_take hy
      have hr : Result s t k := (hp.result k).2 (Or.inr ⟨y, hyi, hyk⟩)
      obtain ⟨p, hpa, hpr, hpn, hpm⟩ := h1.deps k hr d hd
      refine ⟨p, hpa, ?_, hpn, hpm⟩
      by_cases c : InstalledKeys s p.key
      · exact hp.kept ⟨c, hpr⟩ n
      · rcases (hp.result p.key).1 hpr with ⟨c', -⟩ | ⟨x, hx, hxk⟩
        · exact absurd c' c
        · have hord := hp.orderIns y hyi x hx (by rw [hyk, hxk]; exact fun e => hpn e.symm)
            ⟨d, by rw [hyk]; exact hd, p, hpa, hxk.symm, hpm⟩
          rw [hp.state]
          exact Or.inr ⟨x, sublist_take ni hord hy, hxk⟩

/-- C122 (partial): wherever the transaction is interrupted, what is there is in order, if the dependencies of packages that are kept
are met by packages that are kept. What is missing: without this condition it is not so, because all removals come first
(`C122_violated`); then `C122_dependencies_met_or_replaced` says which dependencies can be unmet. -/
theorem C122_interrupted_in_order_partial (hs : SolverFor rs s) {o : Orders} {q : Request N U} {t : Transaction N S U} (h : s.solve o q = .ok t)
    (h0 : Consistent (allPackages rs) (some q.modifiers) (InstalledKeys s))
    (h1 : Consistent (allPackages rs) (some q.modifiers) (Result s t))
    (hk : ∀ k, KeptPackage s t k → ∀ d ∈ k.installRequires,
      ∃ p ∈ allPackages rs, KeptPackage s t p.key ∧ p.key ≠ k ∧ MeetsDep (some q.modifiers) d p) (n : Nat) :
    Consistent (allPackages rs) (some q.modifiers) (InstalledAfter s t n) := by
  obtain ⟨c1, c2, c3⟩ := C122_no_clash hs h h0 h1 n
  refine ⟨c1, fun k hst d hd => ?_, c2, c3⟩
  rcases C122_dependencies_met_or_replaced hs h h0 h1 n hst hd with hc | ⟨hc, -⟩
  · exact hc
  · obtain ⟨p, hpa, hpk, hpn, hpm⟩ := hk k hc d hd
    exact ⟨p, hpa, (C122_between hs h n).2 _ hpk, hpn, hpm⟩

/-- C122: a transaction that removes nothing can be interrupted anywhere -/
theorem C122_only_installs (hs : SolverFor rs s) {o : Orders} {q : Request N U} {t : Transaction N S U} (h : s.solve o q = .ok t)
    (h0 : Consistent (allPackages rs) (some q.modifiers) (InstalledKeys s))
    (h1 : Consistent (allPackages rs) (some q.modifiers) (Result s t)) (hr : ∀ k, ¬ RemovedBy t.operations k) (n : Nat) :
    Consistent (allPackages rs) (some q.modifiers) (InstalledAfter s t n) := by
  have hall : ∀ k, InstalledKeys s k → KeptPackage s t k := fun k hk => ⟨hk, Or.inl ⟨hk, hr k⟩⟩
  refine C122_interrupted_in_order_partial hs h h0 h1 (fun k hk d hd => ?_) n
  obtain ⟨p, hpa, hpi, hpn, hpm⟩ := h0.deps k hk.1 d hd
  exact ⟨p, hpa, hall _ hpi, hpn, hpm⟩

/-- C122: a transaction that installs nothing can be interrupted anywhere -/
theorem C122_only_removals (hs : SolverFor rs s) {o : Orders} {q : Request N U} {t : Transaction N S U} (h : s.solve o q = .ok t)
    (h0 : Consistent (allPackages rs) (some q.modifiers) (InstalledKeys s))
    (h1 : Consistent (allPackages rs) (some q.modifiers) (Result s t)) (hr : ∀ k, ¬ InstalledBy t.operations k) (n : Nat) :
    Consistent (allPackages rs) (some q.modifiers) (InstalledAfter s t n) := by
  have hall : ∀ k, Result s t k → KeptPackage s t k := fun k hk => by
    rcases hk with hk | hk
    · exact ⟨hk.1, Or.inl hk⟩
    · exact absurd hk (hr k)
  refine C122_interrupted_in_order_partial hs h h0 h1 (fun k hk d hd => ?_) n
  obtain ⟨p, hpa, hpi, hpn, hpm⟩ := h1.deps k hk.2 d hd
  exact ⟨p, hpa, hall _ hpi, hpn, hpm⟩

/-- C122: after an interruption the same request can still be satisfied (as far as jobs are concerned that install, soft-update or
remove; and hard updates if no two packages that match them have the same version), if what the transaction leads to is valid (C41) -/
theorem C122_resume (hs' : SolverFor rs' s') {o' : Orders} {q : Request N U} {t : Transaction N S U} {n : Nat}
    (hv : Solves rs s q (Result s t)) (hst : StoppedAfter rs s t n rs' s') (hj : ∀ j ∈ q.jobs, j.kind ≠ .upgrade)
    (hu : ∀ j ∈ q.jobs, j.kind = .hardUpdate → ∀ r, j.requirement = some r → ∀ p ∈ allPackages rs', ∀ p' ∈ allPackages rs',
      MeetsJob r p → MeetsJob r p' → p.version = p'.version → p.key = p'.key) (u : Sat.UnsatInfo) :
    s'.solve o' q ≠ .error (.sat (.satisfiability u)) := by
  intro he
  have h2 := C40_decides hs' o' q
  rw [he] at h2
  refine h2 ⟨Result s t, ?_⟩
  unfold Solves at hv ⊢
  rw [effectiveJobs_plain s hj] at hv
  rw [effectiveJobs_plain s' hj]
  have hv' := validInstall_after hst.present hst.known hst.same hv
  refine ⟨hv'.consistent, fun j hjm => ?_⟩
  obtain ⟨r, hr, h1⟩ := hv'.jobs j hjm
  refine ⟨r, hr, ?_⟩
  cases hkind : j.kind with
  | install => rw [hkind] at h1; exact h1
  | softUpdate => rw [hkind] at h1; exact h1
  | remove => rw [hkind] at h1; exact h1
  | upgrade => rw [hkind] at h1; exact h1
  | hardUpdate =>
    rw [hkind] at h1
    rintro x ⟨b, a, e, hx, hb, ha⟩
    have hxm : x ∈ allPackages rs' := by rw [e]; simp
    obtain ⟨y, hy⟩ := updateTarget_exists (inst := Result s t) ⟨x, hxm, hx⟩
    have hIy := h1 y hy
    obtain ⟨b0, a0, e0, hym, hb0, ha0⟩ := hy
    have hyin : y ∈ allPackages rs' := by rw [e0]; simp
    have le1 : ∀ z ∈ allPackages rs', MeetsJob r z → z.version ≤ y.version := by
      intro z hz hzm
      rw [e0, List.mem_append, List.mem_cons] at hz
      rcases hz with hz | rfl | hz
      · rcases hb0 z hz hzm with h | h
        · exact le_of_lt h
        · exact le_of_eq h.1
      · exact le_refl _
      · by_contra hn
        exact ha0 z hz hzm (Or.inl (not_le.1 hn))
    have le2 : ∀ z ∈ allPackages rs', MeetsJob r z → z.version ≤ x.version := by
      intro z hz hzm
      rw [e, List.mem_append, List.mem_cons] at hz
      rcases hz with hz | rfl | hz
      · rcases hb z hz hzm with h | h
        · exact le_of_lt h
        · exact le_of_eq h.1
      · exact le_refl _
      · by_contra hn
        exact ha z hz hzm (Or.inl (not_le.1 hn))
    have : x.key = y.key := hu j hjm hkind r hr x hxm y hyin hx hym (le_antisymm (le1 x hxm hx) (le2 y hyin hym))
    rw [this]
    exact hIy

/-! ## Concrete cases -/

namespace InterruptedExample
open Verif.Pkg.Example Verif.Solve.Example Verif.Solve.Check SolveExample

theorem state_eq (s : DependencySolver N S U) (t : Transaction N S U) (n : Nat) :
    InstalledAfter s t n = Of (applyList (t.operations.take n) (s.installed.iter.map Package.key)) := by
  unfold InstalledAfter
  rw [installedKeys_eq, apply_eq]

/-- installed are 4-1 and 5-1, and 6-1 which depends on 4; 5-2 depends on 7, which depends on 4 -/
def inst : List P := [pkg 9 4 1, pkg 9 5 1, pkg 9 6 1 [dep 4]]
def remote : List P := [pkg 0 5 2 [dep 7], pkg 0 7 1 [dep 4]]

theorem solvedExample : solved ((solver inst remote).solve insertionOrder (request [hardUpdate (req 5)])) =
    some (.ok ([.remove (pkg 9 5 1), .install (pkg 0 7 1 [dep 4]), .install (pkg 0 5 2 [dep 7])],
      [.install (pkg 0 7 1 [dep 4]), .update (pkg 0 5 2 [dep 7]) (pkg 9 5 1)])) := by decide +kernel

/-- the hypotheses of the theorems are met when 5 is updated: 5-1 is removed, then 7-1 and 5-2 are installed -/
example : ∃ t, (solver inst remote).solve insertionOrder (request [hardUpdate (req 5)]) = .ok t ∧
    SolverFor (repos inst remote) (solver inst remote) ∧ t.operations.length = 3 ∧
    Consistent (allPackages (repos inst remote)) (some Modifiers.empty) (InstalledKeys (solver inst remote)) ∧
    Consistent (allPackages (repos inst remote)) (some Modifiers.empty) (Result (solver inst remote) t) ∧
    (∀ k, KeptPackage (solver inst remote) t k → ∀ d ∈ k.installRequires, ∃ p ∈ allPackages (repos inst remote),
      KeptPackage (solver inst remote) t p.key ∧ p.key ≠ k ∧ MeetsDep (some Modifiers.empty) d p) ∧
    ∀ n, Consistent (allPackages (repos inst remote)) (some Modifiers.empty) (InstalledAfter (solver inst remote) t n) := by
  obtain ⟨t, ht, hops⟩ := solved_ok solvedExample
  have hfor : SolverFor (repos inst remote) (solver inst remote) := solverFor (by decide +kernel) (by decide +kernel)
  have h0 : Consistent (allPackages (repos inst remote)) (some Modifiers.empty) (InstalledKeys (solver inst remote)) := by
    rw [installedKeys_eq]; decide +kernel
  have h1 : Consistent (allPackages (repos inst remote)) (some Modifiers.empty) (Result (solver inst remote) t) := by
    rw [result_eq, hops]; decide +kernel
  have h2 : ∀ k, KeptPackage (solver inst remote) t k → ∀ d ∈ k.installRequires, ∃ p ∈ allPackages (repos inst remote),
      KeptPackage (solver inst remote) t p.key ∧ p.key ≠ k ∧ MeetsDep (some Modifiers.empty) d p := by
    unfold KeptPackage
    rw [installedKeys_eq, result_eq, hops]
    intro k hk
    have : ∀ k ∈ (solver inst remote).installed.iter.map Package.key, ∀ d ∈ k.installRequires,
        ∃ p ∈ allPackages (repos inst remote), (Of ((solver inst remote).installed.iter.map Package.key) p.key ∧
          Of (applyList [.remove (pkg 9 5 1), .install (pkg 0 7 1 [dep 4]), .install (pkg 0 5 2 [dep 7])]
            ((solver inst remote).installed.iter.map Package.key)) p.key) ∧ p.key ≠ k ∧ MeetsDep (some Modifiers.empty) d p := by
      decide +kernel
    exact this k hk.1
  exact ⟨t, ht, hfor, by rw [hops]; rfl, h0, h1, h2, C122_interrupted_in_order_partial hfor ht h0 h1 h2⟩

/-- the hypotheses of `C122_resume` are met when the operation that removes 5-1 was the only one carried out; asked again, the solver
installs the rest -/
example : ∃ t, (solver inst remote).solve insertionOrder (request [hardUpdate (req 5)]) = .ok t ∧
    Solves (repos inst remote) (solver inst remote) (request [hardUpdate (req 5)]) (Result (solver inst remote) t) ∧
    StoppedAfter (repos inst remote) (solver inst remote) t 1 (repos [pkg 9 4 1, pkg 9 6 1 [dep 4]] remote)
      (solver [pkg 9 4 1, pkg 9 6 1 [dep 4]] remote) ∧
    SolverFor (repos [pkg 9 4 1, pkg 9 6 1 [dep 4]] remote) (solver [pkg 9 4 1, pkg 9 6 1 [dep 4]] remote) ∧
    (∀ p ∈ allPackages (repos [pkg 9 4 1, pkg 9 6 1 [dep 4]] remote), ∀ p' ∈ allPackages (repos [pkg 9 4 1, pkg 9 6 1 [dep 4]] remote),
      MeetsJob (req 5) p → MeetsJob (req 5) p' → p.version = p'.version → p.key = p'.key) := by
  obtain ⟨t, ht, hops⟩ := solved_ok solvedExample
  refine ⟨t, ht, ?_, ⟨?_, ?_, by decide +kernel, ?_⟩, solverFor (by decide +kernel) (by decide +kernel), by decide +kernel⟩
  · rw [result_eq, hops]; unfold Solves; decide +kernel
  · rw [state_eq, installedKeys_eq, hops]
    have h1 : ∀ k ∈ (solver [pkg 9 4 1, pkg 9 6 1 [dep 4]] remote).installed.iter.map Package.key,
      k ∈ applyList (List.take 1 [.remove (pkg 9 5 1), .install (pkg 0 7 1 [dep 4]), .install (pkg 0 5 2 [dep 7])])
        ((solver inst remote).installed.iter.map Package.key) := by decide +kernel
    have h2 : ∀ k ∈ applyList (List.take 1 [.remove (pkg 9 5 1), .install (pkg 0 7 1 [dep 4]), .install (pkg 0 5 2 [dep 7])])
        ((solver inst remote).installed.iter.map Package.key),
      k ∈ (solver [pkg 9 4 1, pkg 9 6 1 [dep 4]] remote).installed.iter.map Package.key := by decide +kernel
    exact fun k => ⟨h1 k, h2 k⟩
  · rw [result_eq, hops]
    have h1 : ∀ k ∈ applyList [.remove (pkg 9 5 1), .install (pkg 0 7 1 [dep 4]), .install (pkg 0 5 2 [dep 7])]
        ((solver inst remote).installed.iter.map Package.key),
      ∃ p ∈ allPackages (repos [pkg 9 4 1, pkg 9 6 1 [dep 4]] remote), p.key = k := by decide +kernel
    exact h1
  · have h1 : ∀ p ∈ allPackages (repos inst remote), ∀ p' ∈ allPackages (repos [pkg 9 4 1, pkg 9 6 1 [dep 4]] remote),
      p.key = p'.key → p.name = p'.name ∧ p.declaredProvides = p'.declaredProvides := by decide +kernel
    intro p hp p' hp' e n
    unfold Provides
    rw [(h1 p hp p' hp' e).1, (h1 p hp p' hp' e).2]

/-- C122 fails: 1-1 depends on 2; when 2 is updated, 1-1 is left alone between the two operations, although what is installed before and
after is in order -/
theorem C122_violated :
    ∃ t, (solver [pkg 9 1 1 [dep 2], pkg 9 2 1] [pkg 0 2 2]).solve insertionOrder (request [hardUpdate (req 2)]) = .ok t ∧
      t.operations = [.remove (pkg 9 2 1), .install (pkg 0 2 2)] ∧
      Consistent (allPackages (repos [pkg 9 1 1 [dep 2], pkg 9 2 1] [pkg 0 2 2])) (some Modifiers.empty)
        (InstalledKeys (solver [pkg 9 1 1 [dep 2], pkg 9 2 1] [pkg 0 2 2])) ∧
      Consistent (allPackages (repos [pkg 9 1 1 [dep 2], pkg 9 2 1] [pkg 0 2 2])) (some Modifiers.empty)
        (Result (solver [pkg 9 1 1 [dep 2], pkg 9 2 1] [pkg 0 2 2]) t) ∧
      ¬ Consistent (allPackages (repos [pkg 9 1 1 [dep 2], pkg 9 2 1] [pkg 0 2 2])) (some Modifiers.empty)
        (InstalledAfter (solver [pkg 9 1 1 [dep 2], pkg 9 2 1] [pkg 0 2 2]) t 1) := by
  have h3 : solved ((solver [pkg 9 1 1 [dep 2], pkg 9 2 1] [pkg 0 2 2]).solve insertionOrder (request [hardUpdate (req 2)])) =
    some (.ok ([.remove (pkg 9 2 1), .install (pkg 0 2 2)], [.update (pkg 0 2 2) (pkg 9 2 1)])) := by decide +kernel
  obtain ⟨t, ht, hops⟩ := solved_ok h3
  refine ⟨t, ht, hops, ?_, ?_, ?_⟩
  · rw [installedKeys_eq]; decide +kernel
  · rw [result_eq, hops]; decide +kernel
  · rw [state_eq, hops]; decide +kernel

/-- following the pretty operations, in which an update is one step, is no way out: 1-2, which conflicts with 2 < 2, comes before 2-1
is replaced -/
theorem C122_violated_pretty :
    ∃ t, (solver [pkg 9 1 1, pkg 9 2 1] [pkg 0 1 2 [] [depc 2 (.lt (v 2))], pkg 0 2 2]).solve insertionOrder
        (request [hardUpdate (req 1), hardUpdate (req 2)]) = .ok t ∧
      t.pretty = [.update (pkg 0 1 2 [] [depc 2 (.lt (v 2))]) (pkg 9 1 1), .update (pkg 0 2 2) (pkg 9 2 1)] ∧
      Consistent (allPackages (repos [pkg 9 1 1, pkg 9 2 1] [pkg 0 1 2 [] [depc 2 (.lt (v 2))], pkg 0 2 2])) (some Modifiers.empty)
        (Apply t.pretty (InstalledKeys (solver [pkg 9 1 1, pkg 9 2 1] [pkg 0 1 2 [] [depc 2 (.lt (v 2))], pkg 0 2 2]))) ∧
      ¬ Consistent (allPackages (repos [pkg 9 1 1, pkg 9 2 1] [pkg 0 1 2 [] [depc 2 (.lt (v 2))], pkg 0 2 2])) (some Modifiers.empty)
        (Apply (t.pretty.take 1) (InstalledKeys (solver [pkg 9 1 1, pkg 9 2 1] [pkg 0 1 2 [] [depc 2 (.lt (v 2))], pkg 0 2 2]))) := by
  have h3 : solved ((solver [pkg 9 1 1, pkg 9 2 1] [pkg 0 1 2 [] [depc 2 (.lt (v 2))], pkg 0 2 2]).solve insertionOrder
      (request [hardUpdate (req 1), hardUpdate (req 2)])) =
    some (.ok ([.remove (pkg 9 2 1), .remove (pkg 9 1 1), .install (pkg 0 1 2 [] [depc 2 (.lt (v 2))]), .install (pkg 0 2 2)],
      [.update (pkg 0 1 2 [] [depc 2 (.lt (v 2))]) (pkg 9 1 1), .update (pkg 0 2 2) (pkg 9 2 1)])) := by decide +kernel
  cases hsol : (solver [pkg 9 1 1, pkg 9 2 1] [pkg 0 1 2 [] [depc 2 (.lt (v 2))], pkg 0 2 2]).solve insertionOrder
      (request [hardUpdate (req 1), hardUpdate (req 2)]) with
  | error e => rw [hsol] at h3; cases e <;> simp [solved] at h3
  | ok t =>
    rw [hsol] at h3
    have hp : t.pretty = [.update (pkg 0 1 2 [] [depc 2 (.lt (v 2))]) (pkg 9 1 1), .update (pkg 0 2 2) (pkg 9 2 1)] := by
      simp [solved] at h3
      exact h3.2
    refine ⟨t, rfl, hp, ?_, ?_⟩
    · rw [hp, installedKeys_eq, apply_eq]; decide +kernel
    · rw [hp, installedKeys_eq, apply_eq]; decide +kernel

end InterruptedExample

end Verif.Props
