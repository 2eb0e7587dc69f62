import Verif.Solve.PrettyLemmas
import Verif.Solve.Example
import Verif.Props.RulesGen
/-
Properties of transactions: C44, C45, C46, C47.

`rs` are the repositories given to the pool, `D` the decisions (literals), `installed` the ids of the installed packages,
in any iteration order.
-/
set_option linter.unusedSectionVars false
namespace Verif.Props
open Verif Verif.Pkg Verif.Graph Verif.Solve
open Relation

variable {N S U : Type} [LinearOrder N] [DecidableEq S] [LinearOrder U] [Syntax S U]

section
variable {rs : List (Repository N S U)} {m : Option (Modifiers N)} {pool : Pool N S U} (hB : Built rs m pool)
  {D : List Int} (hD : Decisions pool D) {installed : List Nat} (hI : ∀ i ∈ installed, ∃ k, IdOf pool k i)
include hB

theorem idOf_of_get {i : Nat} {p : Package N S U} (hk : ∃ k, IdOf pool k i) (h : pool.idToPkg i = .ok p) :
    IdOf pool p.key i := by
  obtain ⟨k, hk⟩ := hk
  obtain ⟨q, -, h2, h3, h4⟩ := IdOf.get hB.ok hk
  rw [h] at h3
  cases h3
  exact ⟨p, rfl, h4⟩

include hD hI

/-- the operations in terms of packages -/
theorem ops_facts {ops : List (Op N S U)} (h : OpsSpec pool (allPackages rs) D installed ops) :
    ∃ (rem ins : List (Package N S U)) (loc : Dict (N × Version U) Nat),
      ops = rem.map .remove ++ ins.map .install ∧ localPackages pool installed = .ok loc ∧
      (∀ p, p ∈ ins ↔ ∃ i : Nat, pool.idToPkg i = .ok p ∧ IdOf pool p.key i ∧ i ∉ installed ∧ (i : Int) ∈ D ∧
        preferredId pool loc i = i) ∧
      (∀ p, p ∈ rem ↔ ∃ i : Nat, pool.idToPkg i = .ok p ∧ IdOf pool p.key i ∧ i ∈ installed ∧ -(i : Int) ∈ D ∧
        ∀ j : Nat, j ∉ installed → (j : Int) ∈ D → preferredId pool loc j ≠ j → preferredId pool loc j ≠ i) ∧
      (ins.map Package.key).Nodup ∧ (rem.map Package.key).Nodup ∧
      (∀ p ∈ ins, ∀ q ∈ ins, p.key ≠ q.key → DependsOn (allPackages rs) m p.key q.key → [q, p].Sublist ins) ∧
      (∀ p ∈ rem, ∀ q ∈ rem, p.key ≠ q.key → DependsOn (allPackages rs) m p.key q.key → [p, q].Sublist rem) := by
  obtain ⟨L, loc, rem, ins, hloc, hnd, hmem, hord, hins, hrem, rfl⟩ := h
  have hpos : ∀ i : Nat, ((i : Int) ∈ D ∨ -(i : Int) ∈ D) → 0 < i := by
    intro i hi
    rcases hi with hi | hi
    · obtain ⟨k, hk⟩ := hD.known _ hi
      simpa using IdOf.pos hB.ok hk
    · obtain ⟨k, hk⟩ := hD.known _ hi
      simpa using IdOf.pos hB.ok hk
  have hinsId : ∀ i : Nat, i ∈ (L.filter (isInstall installed)).map Int.natAbs ↔ i ∉ installed ∧ (i : Int) ∈ D := by
    intro i
    simp only [List.mem_map, List.mem_filter, isInstall, Bool.and_eq_true, decide_eq_true_eq, hmem]
    constructor
    · rintro ⟨l, ⟨h1, h2, h3⟩, rfl⟩
      refine ⟨h3, ?_⟩
      have : ((l.natAbs : Nat) : Int) = l := by omega
      rw [this]; exact h1
    · rintro ⟨h1, h2⟩
      refine ⟨i, ⟨h2, ?_, by simpa using h1⟩, by simp⟩
      have := hpos i (Or.inl h2)
      omega
  have hremId : ∀ i : Nat, i ∈ (L.filter (isRemoval installed)).map Int.natAbs ↔ i ∈ installed ∧ -(i : Int) ∈ D := by
    intro i
    simp only [List.mem_map, List.mem_filter, isRemoval, Bool.and_eq_true, decide_eq_true_eq, hmem]
    constructor
    · rintro ⟨l, ⟨h1, h2, h3⟩, rfl⟩
      refine ⟨h3, ?_⟩
      have : -((l.natAbs : Nat) : Int) = l := by omega
      rw [this]; exact h1
    · rintro ⟨h1, h2⟩
      refine ⟨-(i : Int), ⟨h2, ?_, by simpa using h1⟩, by simp⟩
      have := hpos i (Or.inr h2)
      omega
  have hknown : ∀ i : Nat, ((i : Int) ∈ D ∨ -(i : Int) ∈ D) → ∃ k, IdOf pool k i := by
    intro i hi
    rcases hi with hi | hi
    · simpa using hD.known _ hi
    · simpa using hD.known _ hi
  have hidinj : ∀ (i j : Nat) (p q : Package N S U), (∃ k, IdOf pool k i) → (∃ k, IdOf pool k j) →
      pool.idToPkg i = .ok p → pool.idToPkg j = .ok q → p.key = q.key → i = j := by
    intro i j p q hi hj h1 h2 e
    have h3 := idOf_of_get hB hi h1
    have h4 := idOf_of_get hB hj h2
    rw [← e] at h4
    exact IdOf.fn h3 h4
  have hndAbs : ∀ P : Int → Bool, (∀ a b : Int, P a = true → P b = true → a.natAbs = b.natAbs → a = b) →
      ((L.filter P).map Int.natAbs).Nodup := by
    intro P hP
    rw [List.Nodup, List.pairwise_map]
    refine List.Pairwise.imp_of_mem ?_ (hnd.filter P)
    intro a b ha hb hab e
    exact hab (hP a b (List.mem_filter.1 ha).2 (List.mem_filter.1 hb).2 e)
  have hsub : ∀ (P : Int → Bool) (Q : Nat → Bool) (x y : Int), [y, x].Sublist L → P x = true → P y = true →
      Q x.natAbs = true → Q y.natAbs = true →
      [y.natAbs, x.natAbs].Sublist (((L.filter P).map Int.natAbs).filter Q) := by
    intro P Q x y h1 h2 h3 h4 h5
    have h6 := ((h1.filter P).map Int.natAbs).filter Q
    simpa [h2, h3, h4, h5] using h6
  refine ⟨rem, ins, loc, rfl, hloc, ?_, ?_, ?_, ?_, ?_, ?_⟩
  · intro p
    rw [mem_mapE hins]
    constructor
    · rintro ⟨i, h1, h2⟩
      rw [List.mem_filter, hinsId] at h1
      exact ⟨i, h2, idOf_of_get hB (hknown i (Or.inl h1.1.2)) h2, h1.1.1, h1.1.2, by simpa using h1.2⟩
    · rintro ⟨i, h1, h2, h3, h4, h5⟩
      refine ⟨i, ?_, h1⟩
      rw [List.mem_filter, hinsId]
      exact ⟨⟨h3, h4⟩, by simpa using h5⟩
  · intro p
    rw [mem_mapE hrem]
    constructor
    · rintro ⟨i, h1, h2⟩
      rw [List.mem_reverse, List.mem_filter, hremId, decide_eq_true_eq] at h1
      refine ⟨i, h2, idOf_of_get hB (hknown i (Or.inr h1.1.2)) h2, h1.1.1, h1.1.2, ?_⟩
      intro j h3 h4 h5 h6
      refine h1.2 (List.mem_map.2 ⟨j, ?_, h6⟩)
      rw [List.mem_filter, hinsId]
      exact ⟨⟨h3, h4⟩, by simpa using h5⟩
    · rintro ⟨i, h1, h2, h3, h4, h5⟩
      refine ⟨i, ?_, h1⟩
      rw [List.mem_reverse, List.mem_filter, hremId, decide_eq_true_eq]
      refine ⟨⟨h3, h4⟩, ?_⟩
      intro h6
      obtain ⟨j, h7, h8⟩ := List.mem_map.1 h6
      rw [List.mem_filter, hinsId] at h7
      exact h5 j h7.1.1 h7.1.2 (by simpa using h7.2) h8
  · refine mapE_nodup hins ?_ ?_
    · refine List.Pairwise.filter _ (hndAbs _ ?_)
      intro a b ha hb
      simp only [isInstall, Bool.and_eq_true, decide_eq_true_eq] at ha hb
      omega
    · intro i hi j hj p q h1 h2 e
      rw [List.mem_filter, hinsId] at hi hj
      exact hidinj i j p q (hknown i (Or.inl hi.1.2)) (hknown j (Or.inl hj.1.2)) h1 h2 e
  · refine mapE_nodup hrem ?_ ?_
    · rw [(List.reverse_perm _).nodup_iff]
      refine List.Pairwise.filter _ (hndAbs _ ?_)
      intro a b ha hb
      simp only [isRemoval, Bool.and_eq_true, decide_eq_true_eq] at ha hb
      omega
    · intro i hi j hj p q h1 h2 e
      rw [List.mem_reverse, List.mem_filter, hremId] at hi hj
      exact hidinj i j p q (hknown i (Or.inr hi.1.2)) (hknown j (Or.inr hj.1.2)) h1 h2 e
  · intro p hp q hq hne hdep
    obtain ⟨i, hi, hip⟩ := (mem_mapE hins p).1 hp
    obtain ⟨j, hj, hjq⟩ := (mem_mapE hins q).1 hq
    rw [List.mem_filter, hinsId] at hi hj
    have hki := idOf_of_get hB (hknown i (Or.inl hi.1.2)) hip
    have hkj := idOf_of_get hB (hknown j (Or.inl hj.1.2)) hjq
    have hij : i ≠ j := by
      rintro rfl
      exact hne (IdOf.inj hB.ok hki hkj)
    have h1 := hord i j p.key q.key hi.1.2 hj.1.2 (by omega) (by simpa using hki) (by simpa using hkj)
      (by rw [hB.modifiers]; exact hdep)
    have h2 := hsub (isInstall installed) (fun i => decide (preferredId pool loc i = i)) i j h1
      (by simp [isInstall, hi.1.1, hpos i (Or.inl hi.1.2)]) (by simp [isInstall, hj.1.1, hpos j (Or.inl hj.1.2)])
      (by simpa using hi.2) (by simpa using hj.2)
    exact mapE_pair hins (by simpa using h2) hjq hip
  · intro p hp q hq hne hdep
    obtain ⟨i, hi, hip⟩ := (mem_mapE hrem p).1 hp
    obtain ⟨j, hj, hjq⟩ := (mem_mapE hrem q).1 hq
    rw [List.mem_reverse, List.mem_filter, hremId] at hi hj
    have hki := idOf_of_get hB (hknown i (Or.inr hi.1.2)) hip
    have hkj := idOf_of_get hB (hknown j (Or.inr hj.1.2)) hjq
    have hij : i ≠ j := by
      rintro rfl
      exact hne (IdOf.inj hB.ok hki hkj)
    have h1 := hord (-(i : Int)) (-(j : Int)) p.key q.key hi.1.2 hj.1.2 (by omega) (by simpa using hki)
      (by simpa using hkj) (by rw [hB.modifiers]; exact hdep)
    have h2 := hsub (isRemoval installed)
      (fun r => decide (r ∉ (((L.filter (isInstall installed)).map Int.natAbs).filter
        (fun i => decide (preferredId pool loc i ≠ i))).map (preferredId pool loc))) (-(i : Int)) (-(j : Int)) h1
      (by simp [isRemoval, hi.1.1, hpos i (Or.inr hi.1.2)]) (by simp [isRemoval, hj.1.1, hpos j (Or.inr hj.1.2)])
      (by rw [Int.natAbs_neg, Int.natAbs_natCast]; exact hi.2) (by rw [Int.natAbs_neg, Int.natAbs_natCast]; exact hj.2)
    have h3 := h2.reverse
    simp only [Int.natAbs_neg, Int.natAbs_natCast, List.reverse_cons, List.reverse_nil, List.nil_append,
      List.singleton_append] at h3
    exact mapE_pair hrem h3 hip hjq

/-- C44: the operations are removals followed by installs; only installed packages that are decided out are removed and
only packages that are not installed and decided in are installed; no package occurs twice; a package is installed after
the installed packages it depends on, and removed before them. -/
theorem C44_operations_well_formed {t : Transaction N S U} (h : mkTransaction pool D installed = .ok t) :
    ∃ rem ins : List (Package N S U), t.operations = rem.map .remove ++ ins.map .install ∧
      (∀ p ∈ rem, InstalledId pool installed p.key ∧ DecidedOut pool D p.key) ∧
      (∀ p ∈ ins, ¬ InstalledId pool installed p.key ∧ DecidedIn pool D p.key) ∧
      ((rem ++ ins).map Package.key).Nodup ∧
      (∀ p ∈ ins, ∀ q ∈ ins, p.key ≠ q.key → DependsOn (allPackages rs) m p.key q.key → [q, p].Sublist ins) ∧
      (∀ p ∈ rem, ∀ q ∈ rem, p.key ≠ q.key → DependsOn (allPackages rs) m p.key q.key → [p, q].Sublist rem) := by
  obtain ⟨hspec, -⟩ := mkTransaction_spec hB.ok hD hI h
  obtain ⟨rem, ins, loc, he, -, hins, hrem, hnd1, hnd2, ho1, ho2⟩ := ops_facts hB hD hI hspec
  have h1 : ∀ p ∈ rem, InstalledId pool installed p.key ∧ DecidedOut pool D p.key := by
    intro p hp
    obtain ⟨i, -, hk, h3, h4, -⟩ := (hrem p).1 hp
    exact ⟨⟨i, hk, h3⟩, ⟨i, hk, h4⟩⟩
  have h2 : ∀ p ∈ ins, ¬ InstalledId pool installed p.key ∧ DecidedIn pool D p.key := by
    intro p hp
    obtain ⟨i, -, hk, h3, h4, -⟩ := (hins p).1 hp
    refine ⟨?_, ⟨i, hk, h4⟩⟩
    rintro ⟨j, hj, hj'⟩
    rw [IdOf.fn hk hj] at h3
    exact h3 hj'
  refine ⟨rem, ins, he, h1, h2, ?_, ho1, ho2⟩
  rw [List.map_append, List.nodup_append]
  refine ⟨hnd2, hnd1, ?_⟩
  intro a ha b hb e
  obtain ⟨p, hp, rfl⟩ := List.mem_map.1 ha
  obtain ⟨q, hq, rfl⟩ := List.mem_map.1 hb
  have h3 := (h1 p hp).1
  rw [e] at h3
  exact (h2 q hq).1 h3

/-- the state that the decisions ask for: the installed packages minus those decided out plus those decided in -/
def Wanted (pool : Pool N S U) (D : List Int) (installed : List Nat) (k : PKey N S U) : Prop :=
  (InstalledId pool installed k ∧ ¬ DecidedOut pool D k) ∨ DecidedIn pool D k

omit hD hI in
theorem preferred_cases {loc : Dict (N × Version U) Nat} (hloc : localPackages pool installed = .ok loc) {i : Nat}
    {k : PKey N S U} (hk : IdOf pool k i) (hne : preferredId pool loc i ≠ i) :
    preferredId pool loc i ∈ installed ∧
      ∀ k', IdOf pool k' (preferredId pool loc i) → SameNameVersion k' k := by
  obtain ⟨p, -, hpk, hp, -⟩ := IdOf.get hB.ok hk
  have e : packageKey pool i = .ok (p.name, p.version) := by unfold packageKey; rw [hp]
  unfold preferredId at hne ⊢
  simp only [e] at hne ⊢
  cases hg : dget loc (p.name, p.version) with
  | none => rw [hg] at hne; exact absurd rfl hne
  | some j =>
    simp only [Option.getD_some]
    obtain ⟨h1, h2⟩ := (localPackages_spec hloc _).1 j hg
    refine ⟨h1, ?_⟩
    intro k' hk'
    obtain ⟨q, -, hqk, hq, -⟩ := IdOf.get hB.ok hk'
    unfold packageKey at h2
    rw [hq] at h2
    simp only [Except.ok.injEq, Prod.mk.injEq] at h2
    rw [← hqk, ← hpk]
    exact h2

omit hD hI in
/-- if an installed package has the name and version of a package that is not installed, such a package is preferred to it -/
theorem preferred_of_installed {loc : Dict (N × Version U) Nat} (hloc : localPackages pool installed = .ok loc) {i : Nat}
    {k k' : PKey N S U} (hk : IdOf pool k i) (hi : i ∉ installed) (hk' : InstalledId pool installed k')
    (hs : SameNameVersion k' k) : preferredId pool loc i ≠ i := by
  obtain ⟨p, -, hpk, hp, -⟩ := IdOf.get hB.ok hk
  obtain ⟨j, hj, hji⟩ := hk'
  obtain ⟨q, -, hqk, hq, -⟩ := IdOf.get hB.ok hj
  have e : packageKey pool i = .ok (p.name, p.version) := by unfold packageKey; rw [hp]
  have e' : packageKey pool j = .ok (p.name, p.version) := by
    unfold packageKey; rw [hq]
    have h1 : q.name = p.name := by
      have := hs.1
      rw [← hqk, ← hpk] at this
      exact this
    have h2 : q.version = p.version := by
      have := hs.2
      rw [← hqk, ← hpk] at this
      exact this
    simp only [h1, h2]
  unfold preferredId
  simp only [e]
  cases hg : dget loc (p.name, p.version) with
  | none => exact absurd hg ((localPackages_spec hloc _).2 j hji e')
  | some j' =>
    simp only [Option.getD_some]
    intro e2
    subst e2
    exact hi ((localPackages_spec hloc _).1 j' hg).1

/-- C45, the general form: a package that is there although it is not wanted is an installed one that replaces a wanted
package of the same name and version, and a wanted package that is not there is replaced by an installed one of the same
name and version, which is there. -/
theorem C45_decisions_realised {t : Transaction N S U} (h : mkTransaction pool D installed = .ok t) (k : PKey N S U) :
    (Apply t.operations (InstalledId pool installed) k → ¬ Wanted pool D installed k →
      InstalledId pool installed k ∧ DecidedOut pool D k ∧
        ∃ k', DecidedIn pool D k' ∧ ¬ InstalledId pool installed k' ∧ SameNameVersion k k') ∧
    (Wanted pool D installed k → ¬ Apply t.operations (InstalledId pool installed) k →
      DecidedIn pool D k ∧ ¬ InstalledId pool installed k ∧
        ∃ k', InstalledId pool installed k' ∧ SameNameVersion k' k ∧
          Apply t.operations (InstalledId pool installed) k') := by
  obtain ⟨hspec, -⟩ := mkTransaction_spec hB.ok hD hI h
  obtain ⟨rem, ins, loc, he, hloc, hins, hrem, -, -, -, -⟩ := ops_facts hB hD hI hspec
  have hR : ∀ k, RemovedBy t.operations k ↔ ∃ p ∈ rem, p.key = k := by
    intro k
    rw [he]
    unfold RemovedBy
    constructor
    · rintro ⟨o, ho, hm⟩
      rw [List.mem_append] at ho
      rcases ho with ho | ho
      · obtain ⟨p, hp, rfl⟩ := List.mem_map.1 ho
        exact ⟨p, hp, hm⟩
      · obtain ⟨p, hp, rfl⟩ := List.mem_map.1 ho
        exact hm.elim
    · rintro ⟨p, hp, e⟩
      exact ⟨.remove p, by simp [hp], e⟩
  have hIn : ∀ k, InstalledBy t.operations k ↔ ∃ p ∈ ins, p.key = k := by
    intro k
    rw [he]
    unfold InstalledBy
    constructor
    · rintro ⟨o, ho, hm⟩
      rw [List.mem_append] at ho
      rcases ho with ho | ho
      · obtain ⟨p, hp, rfl⟩ := List.mem_map.1 ho
        exact hm.elim
      · obtain ⟨p, hp, rfl⟩ := List.mem_map.1 ho
        exact ⟨p, hp, hm⟩
    · rintro ⟨p, hp, e⟩
      exact ⟨.install p, by simp [hp], e⟩
  have hnotboth : ∀ k, DecidedIn pool D k → ¬ DecidedOut pool D k := by
    rintro k ⟨i, hi, h1⟩ ⟨j, hj, h2⟩
    rw [IdOf.fn hj hi] at h2
    exact hD.consistent _ h1 h2
  -- an installed package that is not decided out stays
  have hstay : ∀ k, InstalledId pool installed k → ¬ DecidedOut pool D k →
      Apply t.operations (InstalledId pool installed) k := by
    intro k h1 h2
    left
    refine ⟨h1, ?_⟩
    rw [hR]
    rintro ⟨p, hp, rfl⟩
    obtain ⟨i, -, hk, -, h4, -⟩ := (hrem p).1 hp
    exact h2 ⟨i, hk, h4⟩
  constructor
  · intro ha hw
    unfold Wanted at hw
    rw [not_or, not_and, not_not] at hw
    rcases ha with ⟨h1, h2⟩ | h1
    · have hout := hw.1 h1
      refine ⟨h1, hout, ?_⟩
      obtain ⟨i, hi, hD'⟩ := hout
      obtain ⟨i', hi', hinst⟩ := h1
      rw [IdOf.fn hi' hi] at hinst
      obtain ⟨p, -, hpk, hp, -⟩ := IdOf.get hB.ok hi
      rw [hR] at h2
      have h3 : ¬ ∀ j : Nat, j ∉ installed → (j : Int) ∈ D → preferredId pool loc j ≠ j → preferredId pool loc j ≠ i := by
        intro h3
        exact h2 ⟨p, (hrem p).2 ⟨i, hp, by rw [hpk]; exact hi, hinst, hD', h3⟩, hpk⟩
      simp only [Classical.not_forall, Classical.not_not] at h3
      obtain ⟨j, h4, h5, h6, h7⟩ := h3
      obtain ⟨kj, hkj⟩ := hD.known _ h5
      rw [Int.natAbs_natCast] at hkj
      refine ⟨kj, ⟨j, hkj, h5⟩, ?_, (preferred_cases hB hloc hkj h6).2 k (by rw [h7]; exact hi)⟩
      rintro ⟨j', hj', hj''⟩
      rw [IdOf.fn hj' hkj] at hj''
      exact h4 hj''
    · rw [hIn] at h1
      obtain ⟨p, hp, rfl⟩ := h1
      obtain ⟨i, -, hk, -, h4, -⟩ := (hins p).1 hp
      exact absurd ⟨i, hk, h4⟩ hw.2
  · intro hw ha
    rcases hw with ⟨h1, h2⟩ | h1
    · exact absurd (hstay k h1 h2) ha
    · have hni : ¬ InstalledId pool installed k := fun h2 => ha (hstay k h2 (hnotboth k h1))
      refine ⟨h1, hni, ?_⟩
      obtain ⟨i, hi, hD'⟩ := h1
      have hii : i ∉ installed := fun h2 => hni ⟨i, hi, h2⟩
      obtain ⟨p, -, hpk, hp, -⟩ := IdOf.get hB.ok hi
      have hne : preferredId pool loc i ≠ i := by
        intro e
        apply ha
        right
        rw [hIn]
        exact ⟨p, (hins p).2 ⟨i, hp, by rw [hpk]; exact hi, hii, hD', e⟩, hpk⟩
      obtain ⟨h3, h4⟩ := preferred_cases hB hloc hi hne
      obtain ⟨k', hk'⟩ := hI _ h3
      refine ⟨k', ⟨_, hk', h3⟩, h4 k' hk', ?_⟩
      left
      refine ⟨⟨_, hk', h3⟩, ?_⟩
      rw [hR]
      rintro ⟨q, hq, rfl⟩
      obtain ⟨j, -, hkj, -, -, h5⟩ := (hrem q).1 hq
      exact h5 i hii hD' hne (IdOf.fn hk' hkj)

/-- C45 when no installed package has the name and version of a package that is to be installed: the result is exactly
what the decisions ask for. -/
theorem C45_decisions_realised_exactly {t : Transaction N S U} (h : mkTransaction pool D installed = .ok t)
    (hd : ∀ k k', InstalledId pool installed k → DecidedIn pool D k' → ¬ InstalledId pool installed k' →
      ¬ SameNameVersion k k') (k : PKey N S U) :
    Apply t.operations (InstalledId pool installed) k ↔ Wanted pool D installed k := by
  obtain ⟨h1, h2⟩ := C45_decisions_realised hB hD hI h k
  constructor
  · intro ha
    apply Classical.byContradiction
    intro hw
    obtain ⟨h3, -, k', h4, h5, h6⟩ := h1 ha hw
    exact hd k k' h3 h4 h5 h6
  · intro hw
    apply Classical.byContradiction
    intro ha
    obtain ⟨h3, h4, k', h5, h6, -⟩ := h2 hw ha
    exact hd k' k h5 h3 h4 h6

/-- C45: a package is never installed if one of the same name and version is installed already. -/
theorem C45_no_reinstallation {t : Transaction N S U} (h : mkTransaction pool D installed = .ok t) (k k' : PKey N S U)
    (hk : InstalledBy t.operations k) (hk' : InstalledId pool installed k') : ¬ SameNameVersion k' k := by
  obtain ⟨hspec, -⟩ := mkTransaction_spec hB.ok hD hI h
  obtain ⟨rem, ins, loc, he, hloc, hins, hrem, -, -, -, -⟩ := ops_facts hB hD hI hspec
  obtain ⟨o, ho, hm⟩ := hk
  rw [he, List.mem_append] at ho
  rcases ho with ho | ho
  · obtain ⟨p, hp, rfl⟩ := List.mem_map.1 ho
    exact hm.elim
  · obtain ⟨p, hp, rfl⟩ := List.mem_map.1 ho
    obtain ⟨i, -, hi, hni, -, hpref⟩ := (hins p).1 hp
    have hm : p.key = k := hm
    rw [hm] at hi
    intro hs
    exact preferred_of_installed hB hloc hi hni hk' hs hpref

/-! ### C47 -/

/-- `k` is decided in or out, its dependencies are readable -/
def Decided (pool : Pool N S U) (D : List Int) (k : PKey N S U) : Prop := DecidedIn pool D k ∨ DecidedOut pool D k

/-- a dependency between two different decided packages -/
def DecidedDep (pool : Pool N S U) (avail : List (Package N S U)) (mods : Option (Modifiers N)) (D : List Int)
    (k k' : PKey N S U) : Prop :=
  Decided pool D k ∧ Decided pool D k' ∧ k ≠ k' ∧ DependsOn avail mods k k'

omit hB hI in
theorem decided_iff (k : PKey N S U) : Decided pool D k ↔ ∃ l ∈ D, IdOf pool k l.natAbs := by
  constructor
  · rintro (⟨i, h1, h2⟩ | ⟨i, h1, h2⟩)
    · exact ⟨i, h2, by simpa using h1⟩
    · exact ⟨_, h2, by simpa using h1⟩
  · rintro ⟨l, h1, h2⟩
    rcases Int.natAbs_eq l with h | h
    · left; exact ⟨_, h2, by rw [← h]; exact h1⟩
    · right; exact ⟨_, h2, by rw [← h]; exact h1⟩

omit hI in
theorem cycle_iff {g : Adj Int} (hg : packageLitDependencyGraph pool D true = .ok g) :
    (∃ x, TransGen (Dep g) x x) ↔ ∃ k, TransGen (DecidedDep pool (allPackages rs) m D) k k := by
  constructor
  · have key : ∀ {x y : Int}, TransGen (Dep g) x y → ∀ k k', IdOf pool k x.natAbs → IdOf pool k' y.natAbs →
        TransGen (DecidedDep pool (allPackages rs) m D) k k' := by
      have one : ∀ {x y : Int}, Dep g x y → ∀ k k', IdOf pool k x.natAbs → IdOf pool k' y.natAbs →
          DecidedDep pool (allPackages rs) m D k k' := by
        rintro x y ⟨he, hne⟩ k k' hk hk'
        obtain ⟨hx, hy⟩ := graph_edge_mem hB.ok hD hg he
        refine ⟨(decided_iff hD k).2 ⟨x, hx, hk⟩, (decided_iff hD k').2 ⟨y, hy, hk'⟩, ?_, ?_⟩
        · rintro rfl
          have := IdOf.fn hk hk'
          have h2 := hD.consistent x hx
          apply hne
          rcases Int.natAbs_eq_natAbs_iff.1 this with h | h
          · exact h.symm
          · rw [h] at h2; simp at h2; exact absurd hy h2
        · rw [← hB.modifiers]
          exact (graph_dep hB.ok hD hg hx hk hy hk').1 he
      intro x y h
      induction h with
      | single h => intro k k' hk hk'; exact .single (one h k k' hk hk')
      | tail h1 h2 ih =>
        intro k k' hk hk'
        obtain ⟨hx, -⟩ := graph_edge_mem hB.ok hD hg h2.1
        obtain ⟨kb, hkb⟩ := hD.known _ hx
        exact (ih k kb hk hkb).tail (one h2 kb k' hkb hk')
    rintro ⟨x, hx⟩
    have hxD : x ∈ D := by
      cases hx with
      | single h => exact (graph_edge_mem hB.ok hD hg h.1).1
      | tail _ h => exact (graph_edge_mem hB.ok hD hg h.1).2
    obtain ⟨k, hk⟩ := hD.known x hxD
    exact ⟨k, key hx k k hk hk⟩
  · have one : ∀ {k k' : PKey N S U}, DecidedDep pool (allPackages rs) m D k k' → ∀ x ∈ D, ∀ y ∈ D,
        IdOf pool k x.natAbs → IdOf pool k' y.natAbs → Dep g x y := by
      rintro k k' ⟨-, -, hne, hd⟩ x hx y hy hk hk'
      refine ⟨(graph_dep hB.ok hD hg hx hk hy hk').2 (by rw [hB.modifiers]; exact hd), ?_⟩
      rintro rfl
      exact hne (IdOf.inj hB.ok hk hk')
    have key : ∀ {k k' : PKey N S U}, TransGen (DecidedDep pool (allPackages rs) m D) k k' → ∀ x ∈ D, ∀ y ∈ D,
        IdOf pool k x.natAbs → IdOf pool k' y.natAbs → TransGen (Dep g) x y := by
      intro k k' h
      induction h with
      | single h => intro x hx y hy hk hk'; exact .single (one h x hx y hy hk hk')
      | tail h1 h2 ih =>
        intro x hx y hy hk hk'
        obtain ⟨z, hz, hkz⟩ := (decided_iff hD _).1 h2.1
        exact (ih x hx z hz hk hkz).tail (one h2 z hz y hy hkz hk')
    rintro ⟨k, hk⟩
    have hd : Decided pool D k := by
      cases hk with
      | single h => exact h.1
      | tail _ h => exact h.2.1
    obtain ⟨x, hx, hkx⟩ := (decided_iff hD k).1 hd
    exact ⟨x, key hk x hx x hx hkx hkx⟩

/-- C47: if the dependencies of the decided packages can be read, then the operations cannot be computed, and building the
transaction raises ValueError, if the decided packages (in or out, whether installed or not) have a dependency cycle. -/
theorem C47_cycle_raises (hdeps : ∀ k, Decided pool D k → ∀ t ∈ k.installRequires,
      ∃ r : Requirement N U, fromConstraints .install t = .ok r)
    (hc : ∃ k, TransGen (DecidedDep pool (allPackages rs) m D) k k) :
    mkTransaction pool D installed = .error .valueError := by
  obtain ⟨g, hg⟩ := graph_exists hB.ok hD (fun l hl k hk t ht =>
    hdeps k ((decided_iff hD k).2 ⟨l, hl, hk⟩) t ht)
  obtain ⟨loc, hloc⟩ := localPackages_ok (pool := pool) (installed := installed) (fun i hi => by
    obtain ⟨k, hk⟩ := hI i hi
    obtain ⟨p, -, -, hp, -⟩ := IdOf.get hB.ok hk
    exact ⟨p, hp⟩)
  have h1 := (C18_raises_iff_cycle (graph_nodup hg)).2 ((cycle_iff hB hD hg).2 hc)
  obtain ⟨rest, hr⟩ := h1
  rcases safeOperations_spec hB.ok hD hI hloc hg with ⟨h2, -⟩ | ⟨-, h2⟩
  · rw [h2] at hr; simp at hr
  · unfold mkTransaction
    rw [hloc]
    simp only [h2]

/-- C47: if there is no such cycle, the operations are computed: the only thing that can still fail is to merge them into
updates (C46). -/
theorem C47_acyclic_accepted (hdeps : ∀ k, Decided pool D k → ∀ t ∈ k.installRequires,
      ∃ r : Requirement N U, fromConstraints .install t = .ok r)
    (hc : ¬ ∃ k, TransGen (DecidedDep pool (allPackages rs) m D) k k) :
    ∃ loc ops, localPackages pool installed = .ok loc ∧ safeOperations pool D installed loc = .ok ops ∧
      mkTransaction pool D installed = (prettyOperations pool ops).map (fun pretty => ⟨ops, pretty⟩) := by
  obtain ⟨g, hg⟩ := graph_exists hB.ok hD (fun l hl k hk t ht =>
    hdeps k ((decided_iff hD k).2 ⟨l, hl, hk⟩) t ht)
  obtain ⟨loc, hloc⟩ := localPackages_ok (pool := pool) (installed := installed) (fun i hi => by
    obtain ⟨k, hk⟩ := hI i hi
    obtain ⟨p, -, -, hp, -⟩ := IdOf.get hB.ok hk
    exact ⟨p, hp⟩)
  rcases safeOperations_spec hB.ok hD hI hloc hg with ⟨-, ops, h2, h3⟩ | ⟨h1, -⟩
  · refine ⟨loc, ops, hloc, h2, ?_⟩
    unfold mkTransaction
    rw [hloc]
    simp only [h2]
    cases prettyOperations pool ops <;> rfl
  · exact absurd ((cycle_iff hB hD hg).1 ((C18_raises_iff_cycle (graph_nodup hg)).1 h1)) hc

end

/-! ### C46 -/

section
variable {rs : List (Repository N S U)} {m : Option (Modifiers N)} {pool : Pool N S U} (hB : Built rs m pool)
  {D : List Int} (hD : Decisions pool D) {installed : List Nat} (hI : ∀ i ∈ installed, ∃ k, IdOf pool k i)
include hB hD hI

/-- C46, with conditions: if whenever one of two operations' packages provides the name of the other's, one is a removal
and the other an install, and no operation is linked in this way to two others, then the pretty operations exist, have
the same effect as the operations, and contain an update exactly for the linked pairs. Missing: without the conditions the
claim is false, see `C46_three_operations_raise` and `C46_two_removals_become_an_update`. -/
theorem C46_pretty_operations_partial {loc : Dict (N × Version U) Nat} (hloc : localPackages pool installed = .ok loc)
    {ops : List (Op N S U)} (hops : safeOperations pool D installed loc = .ok ops)
    (hkinds : ∀ o ∈ ops, ∀ o' ∈ ops, o ≠ o' → Linked (allPackages rs) o.package.key o'.package.key →
      ((∃ p, o = .install p) ↔ (∃ p, o' = .remove p)))
    (hunique : ∀ a ∈ ops, ∀ b ∈ ops, ∀ c ∈ ops, a ≠ b → a ≠ c → Linked (allPackages rs) a.package.key b.package.key →
      Linked (allPackages rs) a.package.key c.package.key → b = c) :
    ∃ pretty, mkTransaction pool D installed = .ok ⟨ops, pretty⟩ ∧ (pretty.flatMap expand).Perm ops ∧
      ∀ p s, .update p s ∈ pretty ↔ (.install p ∈ ops ∧ .remove s ∈ ops ∧ Linked (allPackages rs) p.key s.key) := by
  have hspec : OpsSpec pool (allPackages rs) D installed ops := by
    cases hg : packageLitDependencyGraph pool D true with
    | error e => unfold safeOperations at hops; simp [hg] at hops
    | ok g =>
      rcases safeOperations_spec hB.ok hD hI hloc hg with ⟨-, ops', h1, h2⟩ | ⟨-, h1⟩
      · rw [hops] at h1; cases h1; exact h2
      · rw [hops] at h1; simp at h1
  obtain ⟨rem, ins, loc', he, -, hins, hrem, hnd1, hnd2, -, -⟩ := ops_facts hB hD hI hspec
  have hplain : ∀ o ∈ ops, (∃ p, o = .install p) ∨ ∃ p, o = .remove p := by
    intro o ho
    rw [he, List.mem_append] at ho
    rcases ho with ho | ho
    · obtain ⟨p, -, rfl⟩ := List.mem_map.1 ho; exact Or.inr ⟨p, rfl⟩
    · obtain ⟨p, -, rfl⟩ := List.mem_map.1 ho; exact Or.inl ⟨p, rfl⟩
  have hp : Pairable (allPackages rs) ops := by
    refine ⟨?_, ?_, ?_, hunique⟩
    · intro o ho
      rcases hplain o ho with ⟨p, rfl⟩ | ⟨p, rfl⟩ <;> trivial
    · rw [he, List.map_append, List.map_map, List.map_map, List.nodup_append]
      refine ⟨hnd2, hnd1, ?_⟩
      intro a ha b hb e
      obtain ⟨p, hp, rfl⟩ := List.mem_map.1 ha
      obtain ⟨q, hq, rfl⟩ := List.mem_map.1 hb
      obtain ⟨i, -, hi, h3, -⟩ := (hrem p).1 hp
      obtain ⟨j, -, hj, h4, -⟩ := (hins q).1 hq
      change p.key = q.key at e
      rw [e] at hi
      rw [IdOf.fn hi hj] at h3
      exact h4 h3
    · intro a ha b hb hne hl
      have h1 := hkinds a ha b hb hne hl
      rcases hplain a ha with ⟨p, rfl⟩ | ⟨p, rfl⟩
      · obtain ⟨q, rfl⟩ := h1.1 ⟨p, rfl⟩
        simp [Op.isRemove]
      · rcases hplain b hb with ⟨q, rfl⟩ | ⟨q, rfl⟩
        · simp [Op.isRemove]
        · obtain ⟨q', hq'⟩ := h1.2 ⟨q, rfl⟩
          cases hq'
  obtain ⟨pretty, h1, h2, h3⟩ := pretty_spec hB.ok hp
  refine ⟨pretty, ?_, h2, h3⟩
  unfold mkTransaction
  rw [hloc]
  simp only [hops, h1]

/-- C46 and C47 together, for packages that provide nothing but their own names: if the installed packages have different
names and so have the packages decided in, and there is no dependency cycle among the decided packages, then building the
transaction succeeds, the pretty operations have the same effect as the operations and the updates are exactly the pairs of
a removal and an install of the same name. -/
theorem C46_pretty_operations_own_names (hdeps : ∀ k, Decided pool D k → ∀ t ∈ k.installRequires,
      ∃ r : Requirement N U, fromConstraints .install t = .ok r)
    (hc : ¬ ∃ k, TransGen (DecidedDep pool (allPackages rs) m D) k k)
    (hown : ∀ p ∈ allPackages rs, ∀ n, Provides p n → n = p.name)
    (hinst : ∀ k k', InstalledId pool installed k → InstalledId pool installed k' → k.name = k'.name → k = k')
    (hin : ∀ k k', DecidedIn pool D k → DecidedIn pool D k' → k.name = k'.name → k = k') :
    ∃ t, mkTransaction pool D installed = .ok t ∧ (t.pretty.flatMap expand).Perm t.operations ∧
      ∀ p s, .update p s ∈ t.pretty ↔ (.install p ∈ t.operations ∧ .remove s ∈ t.operations ∧ p.name = s.name) := by
  obtain ⟨loc, ops, hloc, hops, -⟩ := C47_acyclic_accepted hB hD hI hdeps hc
  have hspec : OpsSpec pool (allPackages rs) D installed ops := by
    cases hg : packageLitDependencyGraph pool D true with
    | error e => unfold safeOperations at hops; simp [hg] at hops
    | ok g =>
      rcases safeOperations_spec hB.ok hD hI hloc hg with ⟨-, ops', h1, h2⟩ | ⟨-, h1⟩
      · rw [hops] at h1; cases h1; exact h2
      · rw [hops] at h1; simp at h1
  obtain ⟨rem, ins, loc', he, -, hins, hrem, hnd1, hnd2, -, -⟩ := ops_facts hB hD hI hspec
  have hlink : ∀ k k' : PKey N S U, Linked (allPackages rs) k k' → k.name = k'.name := by
    rintro k k' (⟨p, h1, rfl, h2⟩ | ⟨p, h1, rfl, h2⟩)
    · exact (hown p h1 _ h2).symm
    · exact hown p h1 _ h2
  have hinj : ∀ l : List (Package N S U), (l.map Package.key).Nodup → ∀ p ∈ l, ∀ q ∈ l, p.key = q.key → p = q := by
    intro l
    induction l with
    | nil => simp
    | cons a t ih =>
      intro hnd p hp q hq e
      rw [List.map_cons, List.nodup_cons] at hnd
      rw [List.mem_cons] at hp hq
      rcases hp with rfl | hp <;> rcases hq with rfl | hq
      · rfl
      · exact absurd (List.mem_map.2 ⟨q, hq, e.symm⟩) hnd.1
      · exact absurd (List.mem_map.2 ⟨p, hp, e⟩) hnd.1
      · exact ih hnd.2 p hp q hq e
  have hcase : ∀ o ∈ ops, (∃ p ∈ ins, o = .install p) ∨ ∃ p ∈ rem, o = .remove p := by
    intro o ho
    rw [he, List.mem_append] at ho
    rcases ho with ho | ho
    · obtain ⟨p, hp, rfl⟩ := List.mem_map.1 ho; exact Or.inr ⟨p, hp, rfl⟩
    · obtain ⟨p, hp, rfl⟩ := List.mem_map.1 ho; exact Or.inl ⟨p, hp, rfl⟩
  have hII : ∀ p ∈ ins, ∀ q ∈ ins, p.name = q.name → p = q := by
    intro p hp q hq e
    obtain ⟨i, -, hi, -, h4, -⟩ := (hins p).1 hp
    obtain ⟨j, -, hj, -, h6, -⟩ := (hins q).1 hq
    exact hinj ins hnd1 p hp q hq (hin p.key q.key ⟨i, hi, h4⟩ ⟨j, hj, h6⟩ e)
  have hRR : ∀ p ∈ rem, ∀ q ∈ rem, p.name = q.name → p = q := by
    intro p hp q hq e
    obtain ⟨i, -, hi, h3, -, -⟩ := (hrem p).1 hp
    obtain ⟨j, -, hj, h5, -, -⟩ := (hrem q).1 hq
    exact hinj rem hnd2 p hp q hq (hinst p.key q.key ⟨i, hi, h3⟩ ⟨j, hj, h5⟩ e)
  have hk : ∀ o ∈ ops, ∀ o' ∈ ops, o ≠ o' → Linked (allPackages rs) o.package.key o'.package.key →
      ((∃ p, o = .install p) ↔ (∃ p, o' = .remove p)) := by
    intro a ha b hb hne hl
    have hn := hlink _ _ hl
    rcases hcase a ha with ⟨p, hp, rfl⟩ | ⟨p, hp, rfl⟩ <;> rcases hcase b hb with ⟨q, hq, rfl⟩ | ⟨q, hq, rfl⟩
    · exact absurd (by rw [hII p hp q hq hn]) hne
    · exact ⟨fun _ => ⟨q, rfl⟩, fun _ => ⟨p, rfl⟩⟩
    · constructor
      · rintro ⟨x, hx⟩; cases hx
      · rintro ⟨x, hx⟩; cases hx
    · exact absurd (by rw [hRR p hp q hq hn]) hne
  obtain ⟨pretty, h1, h2, h3⟩ := C46_pretty_operations_partial hB hD hI hloc hops hk (by
    intro a ha b hb c hc hab hac hl1 hl2
    have hn1 := hlink _ _ hl1
    have hn2 := hlink _ _ hl2
    have hbc := hn1.symm.trans hn2
    have k1 := hk a ha b hb hab hl1
    have k2 := hk a ha c hc hac hl2
    rcases hcase b hb with ⟨p, hp, rfl⟩ | ⟨p, hp, rfl⟩ <;> rcases hcase c hc with ⟨q, hq, rfl⟩ | ⟨q, hq, rfl⟩
    · rw [hII p hp q hq hbc]
    · obtain ⟨x, hx⟩ := k1.1 (k2.2 ⟨q, rfl⟩); cases hx
    · obtain ⟨x, hx⟩ := k2.1 (k1.2 ⟨p, rfl⟩); cases hx
    · rw [hRR p hp q hq hbc])
  refine ⟨⟨ops, pretty⟩, h1, h2, ?_⟩
  intro p s
  rw [h3]
  refine and_congr_right (fun hp => and_congr_right (fun _ => ⟨fun h => hlink _ _ h, fun h => ?_⟩))
  have hpi : p ∈ ins := by
    rcases hcase _ hp with ⟨q, hq, e⟩ | ⟨q, hq, e⟩
    · cases e; exact hq
    · cases e
  obtain ⟨i, -, hi, -⟩ := (hins p).1 hpi
  obtain ⟨q, hq, hqk⟩ := IdOf.isAvail hB.ok hi
  exact Or.inl ⟨q, hq, hqk, Or.inl (by
    have : q.name = p.name := congrArg PKey.name hqk
    rw [this]; exact h.symm)⟩

end

/-! ### Concrete cases -/

namespace TransactionExample
open Verif.Pkg.Example Verif.Solve.Example

/-- installed: 1-1, 2-1 which depends on 1, and 4-1. Remote: 1-2, 2-2 which depends on 1, 3-1 which depends on 2. -/
def inst : Repository Nat Str Nat := Repository.ofList [pkg 9 1 1, pkg 9 2 1 [dep 1], pkg 9 4 1]
def remote : Repository Nat Str Nat := Repository.ofList [pkg 0 1 2, pkg 0 2 2 [dep 1], pkg 0 3 1 [dep 2]]
def pool : Pool Nat Str Nat := poolOf [inst, remote]

theorem built : Built [inst, remote] none pool := ⟨none, pool, rfl, rfl⟩

/-- replace 1-1 and 2-1, keep 4-1, install 3-1 -/
def D : List Int := [-1, -2, 3, 4, 5, 6]

theorem decisions : Decisions pool D := by
  refine ⟨?_, by decide⟩
  intro l hl
  simp only [D, List.mem_cons, List.not_mem_nil, or_false] at hl
  rcases hl with rfl | rfl | rfl | rfl | rfl | rfl
  · exact ⟨_, pkg 9 1 1, rfl, by decide +kernel⟩
  · exact ⟨_, pkg 9 2 1 [dep 1], rfl, by decide +kernel⟩
  · exact ⟨_, pkg 9 4 1, rfl, by decide +kernel⟩
  · exact ⟨_, pkg 0 1 2, rfl, by decide +kernel⟩
  · exact ⟨_, pkg 0 2 2 [dep 1], rfl, by decide +kernel⟩
  · exact ⟨_, pkg 0 3 1 [dep 2], rfl, by decide +kernel⟩

theorem installed : ∀ i ∈ [1, 2, 3], ∃ k, IdOf pool k i := by
  intro i hi
  simp only [List.mem_cons, List.not_mem_nil, or_false] at hi
  rcases hi with rfl | rfl | rfl
  · exact ⟨_, pkg 9 1 1, rfl, by decide +kernel⟩
  · exact ⟨_, pkg 9 2 1 [dep 1], rfl, by decide +kernel⟩
  · exact ⟨_, pkg 9 4 1, rfl, by decide +kernel⟩

/-- what C44 - C46 speak about: removals in reverse order of dependency, installs in order of dependency, two updates -/
theorem example_transaction : outcome (mkTransaction pool D [1, 2, 3]) = .ok
    ([.remove (pkg 9 2 1 [dep 1]), .remove (pkg 9 1 1), .install (pkg 0 1 2), .install (pkg 0 2 2 [dep 1]),
      .install (pkg 0 3 1 [dep 2])],
     [.update (pkg 0 1 2) (pkg 9 1 1), .update (pkg 0 2 2 [dep 1]) (pkg 9 2 1 [dep 1]), .install (pkg 0 3 1 [dep 2])]) := by
  decide +kernel

theorem keyOf {k : PKey Nat Str Nat} {i : Nat} (h : IdOf pool k i) :
    i = 1 ∧ k = (pkg 9 1 1).key ∨ i = 2 ∧ k = (pkg 9 2 1 [dep 1]).key ∨ i = 3 ∧ k = (pkg 9 4 1).key ∨
    i = 4 ∧ k = (pkg 0 1 2).key ∨ i = 5 ∧ k = (pkg 0 2 2 [dep 1]).key ∨ i = 6 ∧ k = (pkg 0 3 1 [dep 2]).key := by
  obtain ⟨p, hp, rfl, h1, h2⟩ := IdOf.get built.ok h
  have : p ∈ [pkg 9 1 1, pkg 9 2 1 [dep 1], pkg 9 4 1, pkg 0 1 2, pkg 0 2 2 [dep 1], pkg 0 3 1 [dep 2]] := by
    have e : allPackages [inst, remote] =
      [pkg 9 1 1, pkg 9 2 1 [dep 1], pkg 9 4 1, pkg 0 1 2, pkg 0 2 2 [dep 1], pkg 0 3 1 [dep 2]] := by decide +kernel
    rw [← e]; exact hp
  have key : ∀ j, pool.packageId p = .ok j → i = j := by
    intro j hj; rw [h2] at hj; cases hj; rfl
  simp only [List.mem_cons, List.not_mem_nil, or_false] at this
  rcases this with rfl | rfl | rfl | rfl | rfl | rfl
  · exact Or.inl ⟨key 1 (by decide +kernel), rfl⟩
  · exact Or.inr (Or.inl ⟨key 2 (by decide +kernel), rfl⟩)
  · exact Or.inr (Or.inr (Or.inl ⟨key 3 (by decide +kernel), rfl⟩))
  · exact Or.inr (Or.inr (Or.inr (Or.inl ⟨key 4 (by decide +kernel), rfl⟩)))
  · exact Or.inr (Or.inr (Or.inr (Or.inr (Or.inl ⟨key 5 (by decide +kernel), rfl⟩))))
  · exact Or.inr (Or.inr (Or.inr (Or.inr (Or.inr ⟨key 6 (by decide +kernel), rfl⟩))))

theorem readable : ∀ k, Decided pool D k → ∀ t ∈ k.installRequires,
    ∃ r : Requirement Nat Nat, fromConstraints .install t = .ok r := by
  have key : ∀ k i, IdOf pool k i → ∀ t ∈ k.installRequires,
      ∃ r : Requirement Nat Nat, fromConstraints .install t = .ok r := by
    intro k i h t ht
    have : t = dep 1 ∨ t = dep 2 := by
      rcases keyOf h with ⟨-, rfl⟩ | ⟨-, rfl⟩ | ⟨-, rfl⟩ | ⟨-, rfl⟩ | ⟨-, rfl⟩ | ⟨-, rfl⟩ <;>
        simp_all [Package.key, pkg]
    rcases this with rfl | rfl
    · exact ⟨_, rfl⟩
    · exact ⟨_, rfl⟩
  rintro k (⟨i, h, -⟩ | ⟨i, h, -⟩)
  · exact key k i h
  · exact key k i h

/-- the hypotheses of C46 and C47 are met by this case -/
example : ∃ t, mkTransaction pool D [1, 2, 3] = .ok t ∧ (t.pretty.flatMap expand).Perm t.operations := by
  obtain ⟨t, h1, h2, -⟩ := C46_pretty_operations_own_names built decisions installed readable
    (by
      intro hc
      have h := C47_cycle_raises built decisions installed readable hc
      have h2 := example_transaction
      rw [h] at h2
      cases h2)
    (by
      rintro p hp n (h | ⟨t, ht, -⟩)
      · exact h
      · have e : ∀ p ∈ allPackages [inst, remote], p.declaredProvides = [] := by decide +kernel
        rw [e p hp] at ht
        cases ht)
    (by
      rintro k k' ⟨i, hi, hi'⟩ ⟨j, hj, hj'⟩ e
      rcases keyOf hi with ⟨rfl, rfl⟩ | ⟨rfl, rfl⟩ | ⟨rfl, rfl⟩ | ⟨rfl, rfl⟩ | ⟨rfl, rfl⟩ | ⟨rfl, rfl⟩ <;>
      rcases keyOf hj with ⟨rfl, rfl⟩ | ⟨rfl, rfl⟩ | ⟨rfl, rfl⟩ | ⟨rfl, rfl⟩ | ⟨rfl, rfl⟩ | ⟨rfl, rfl⟩ <;>
      first
        | rfl
        | (exact absurd e (by decide))
        | (exact absurd hi' (by decide))
        | (exact absurd hj' (by decide)))
    (by
      rintro k k' ⟨i, hi, hi'⟩ ⟨j, hj, hj'⟩ e
      rcases keyOf hi with ⟨rfl, rfl⟩ | ⟨rfl, rfl⟩ | ⟨rfl, rfl⟩ | ⟨rfl, rfl⟩ | ⟨rfl, rfl⟩ | ⟨rfl, rfl⟩ <;>
      rcases keyOf hj with ⟨rfl, rfl⟩ | ⟨rfl, rfl⟩ | ⟨rfl, rfl⟩ | ⟨rfl, rfl⟩ | ⟨rfl, rfl⟩ | ⟨rfl, rfl⟩ <;>
      first
        | rfl
        | (exact absurd e (by decide))
        | (exact absurd hi' (by decide))
        | (exact absurd hj' (by decide)))
  exact ⟨t, h1, h2⟩

/-- C45: 1-1 is installed; the decisions are to take it out and to put in another package 1-1, from the remote repository:
nothing happens, because the installed one replaces it -/
example : outcome (mkTransaction (poolOf [Repository.ofList [pkg 9 1 1], Repository.ofList [pkg 0 1 1]]) [-1, 2] [1]) =
    .ok ([], []) := by decide +kernel

/-- C46 fails without its conditions: 2-1 and 3-1, which provide 1, replace 1-1. Building the transaction raises
ValueError, although there is nothing wrong with the operations. -/
theorem C46_three_operations_raise :
    let inst := Repository.ofList [pkg 9 1 1]
    let remote := Repository.ofList [pkg 0 2 1 [] [] [dep 1], pkg 0 3 1 [] [] [dep 1]]
    (match localPackages (poolOf [inst, remote]) [1] with
      | .ok loc => safeOperations (poolOf [inst, remote]) [-1, 2, 3] [1] loc
      | .error e => .error e) =
      .ok [.remove (pkg 9 1 1), .install (pkg 0 2 1 [] [] [dep 1]), .install (pkg 0 3 1 [] [] [dep 1])] ∧
    outcome (mkTransaction (poolOf [inst, remote]) [-1, 2, 3] [1]) = .error .valueError := by decide +kernel

/-- C46 fails without its conditions: the removal of 1-1 and of 2-1, which provides 1, is shown as an update -/
theorem C46_two_removals_become_an_update :
    outcome (mkTransaction (poolOf [Repository.ofList [pkg 9 1 1, pkg 9 2 1 [] [] [dep 1]]]) [-1, -2] [1, 2]) =
      .ok ([.remove (pkg 9 2 1 [] [] [dep 1]), .remove (pkg 9 1 1)],
        [.update (pkg 9 1 1) (pkg 9 2 1 [] [] [dep 1])]) := by decide +kernel

/-- C47: installed 1-1, 2-1 which depends on 1; they are to be replaced by 1-2, which depends on 2, and 2-2. Neither what is
installed nor what is wanted has a cycle, but together they do: ValueError. -/
theorem C47_acyclic_change_rejected :
    outcome (mkTransaction (poolOf [Repository.ofList [pkg 9 1 1, pkg 9 2 1 [dep 1]],
      Repository.ofList [pkg 0 1 2 [dep 2], pkg 0 2 2]]) [-1, -2, 3, 4] [1, 2]) = .error .valueError := by decide +kernel

end TransactionExample

end Verif.Props
