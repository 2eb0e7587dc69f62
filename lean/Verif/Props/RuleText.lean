import Verif.Props.TransactionText
import Verif.Props.UnsatExamples
import Mathlib.Data.List.Forall2
import Std.Data.String.ToInt
/-
C88: the lines of an explanation are true statements about packages, and cannot be misread.
-/
set_option linter.unusedSectionVars false
namespace Verif.Props
open Verif Verif.Pkg Verif.Solve Verif.Rules Verif.Graph Verif.Sat

variable {N S U : Type} [LinearOrder N] [DecidableEq S] [LinearOrder U] [Syntax S U]

/-! ### What a line says -/

/-- What the description of a rule says. -/
inductive Fact (N S U : Type) where
  /-- one of the packages is to be installed, because of a job -/
  | install (alternatives : List (Package N S U))
  /-- the package is what a job updates to -/
  | update (p : Package N S U)
  /-- the package is to be removed, because of a job -/
  | remove (p : Package N S U)
  /-- the packages have the same name -/
  | oneOf (p q : Package N S U)
  /-- a package depends on having one of others -/
  | requires (p : Package N S U) (alternatives : List (Package N S U))
  /-- one of the packages declares a conflict with the other -/
  | conflict (p q : Package N S U)
  /-- a dependency of the package cannot be satisfied -/
  | missing (p : Package N S U)

/-- `name-version` -/
def nameVersion (T : Texts N U) (p : Package N S U) : List Char := T.name p.name ++ '-' :: T.version p.version

/-- the packages, separated by bars; what looks the same is written only once -/
def barred (T : Texts N U) (ps : List (Package N S U)) : List Char :=
  joinWith " | ".toList (ps.map (fun p => '+' :: nameVersion T p)).eraseDups

/-- the words for it -/
def Fact.text (T : Texts N U) : Fact N S U → List Char
  | .install ps => "Install command rule (".toList ++ barred T ps ++ ")".toList
  | .update p => "Update to latest command rule (".toList ++ barred T [p] ++ ")".toList
  | .remove p => "Remove command rule (".toList ++ '-' :: nameVersion T p ++ ")".toList
  | .oneOf p q => "Can only install one of: (".toList ++ barred T [p, q] ++ ")".toList
  | .requires p ps => nameVersion T p ++ " requires (".toList ++ barred T ps ++ ")".toList
  | .conflict p q => nameVersion T p ++ " conflicts with ".toList ++ '+' :: nameVersion T q
  | .missing p => '+' :: nameVersion T p ++ " was ignored because it depends on missing packages".toList

section
variable (T : Texts N U) (p q : Package N S U) (ps : List (Package N S U))
omit [LinearOrder N] [DecidableEq S] [LinearOrder U] [Syntax S U]
theorem text_install : Fact.text T (.install ps) = "Install command rule (".toList ++ barred T ps ++ ")".toList := rfl
theorem text_update : Fact.text T (.update p) = "Update to latest command rule (".toList ++ barred T [p] ++ ")".toList := rfl
theorem text_remove : Fact.text T (.remove p) = "Remove command rule (".toList ++ '-' :: nameVersion T p ++ ")".toList := rfl
theorem text_oneOf : Fact.text T (.oneOf p q) = "Can only install one of: (".toList ++ barred T [p, q] ++ ")".toList := rfl
theorem text_requires : Fact.text T (.requires p ps) =
    nameVersion T p ++ " requires (".toList ++ barred T ps ++ ")".toList := rfl
theorem text_conflict : Fact.text T (.conflict p q) =
    nameVersion T p ++ " conflicts with ".toList ++ '+' :: nameVersion T q := rfl
theorem text_missing : Fact.text T (.missing p) =
    '+' :: nameVersion T p ++ " was ignored because it depends on missing packages".toList := rfl
end

/-- The fact is true, and the requirements `reqs` are its reason: a job's requirement, the dependencies that lead from it to
the package in question, and the requirement of this package that the fact is about. -/
def Fact.Holds (avail : List (Package N S U)) (mods : Option (Modifiers N)) (installed : PKey N S U → Prop)
    (jobs : List (Job N U)) (reqs : List (Requirement N U)) : Fact N S U → Prop
  | .install ps => ∃ j ∈ jobs, (j.kind = .install ∨ j.kind = .softUpdate) ∧ ∃ r, j.requirement = some r ∧ reqs = [r] ∧
      ∀ k, (∃ p ∈ ps, p.key = k) ↔ ∃ q ∈ avail, q.key = k ∧ MeetsJob r q
  | .update p => ∃ j ∈ jobs, j.kind = .hardUpdate ∧ ∃ r, j.requirement = some r ∧ reqs = [r] ∧ UpdateTarget avail installed r p
  | .remove p => ∃ j ∈ jobs, j.kind = .remove ∧ ∃ r, j.requirement = some r ∧ reqs = [r] ∧ p ∈ avail ∧ MeetsJob r p
  | .oneOf p q => p.name = q.name ∧ p.key ≠ q.key ∧ ∃ l, reqs = l ++ [Requirement.ofName .conflict p.name] ∧
      (Trail avail mods jobs l p ∨ Trail avail mods jobs l q)
  | .requires p ps => ∃ l t r, reqs = l ++ [r] ∧ Trail avail mods jobs l p ∧ t ∈ p.installRequires ∧
      fromConstraints .install t = .ok r ∧
      ∀ k, (∃ q ∈ ps, q.key = k) ↔ ∃ q ∈ avail, q.key = k ∧ q.key ≠ p.key ∧ Meets mods true r q
  | .conflict p q => p.key ≠ q.key ∧ ∃ a b, (a = p ∧ b = q ∨ a = q ∧ b = p) ∧ ∃ l t r, reqs = l ++ [r] ∧
      Trail avail mods jobs l a ∧ t ∈ a.conflicts ∧ fromConstraints .conflict t = .ok r ∧ b ∈ avail ∧ Meets mods true r b
  | .missing p => ∃ l t r, reqs = l ++ [r] ∧ Trail avail mods jobs l p ∧ t ∈ p.installRequires ∧
      fromConstraints .install t = .ok r ∧ ∀ q ∈ avail, ¬ Meets mods true r q

/-- a line, with the requirements -/
def lineText (T : Texts N U) (reqs : List (Requirement N U)) (f : Fact N S U) : List Char :=
  "Requirements: ".toList ++ joinWith " <- ".toList (reqs.map (fun q => '\'' :: T.requirement q ++ ['\''])) ++
    "\n    ".toList ++ f.text T

/-! ### The texts of literals -/

theorem fromkeys_eraseDups {α : Type} [DecidableEq α] [BEq α] [LawfulBEq α] (l : List α) : fromkeys l = l.eraseDups := by
  have key : ∀ (n : Nat) (l acc : List α), l.length ≤ n →
      l.foldl (fun acc x => sadd x acc) acc = acc ++ (l.filter (fun x => decide (x ∉ acc))).eraseDups := by
    intro n
    induction n with
    | zero =>
      intro l acc h
      have : l = [] := List.length_eq_zero_iff.1 (by omega)
      subst this; simp
    | succ n ih =>
      intro l acc h
      cases l with
      | nil => simp
      | cons x xs =>
        have hl : xs.length ≤ n := by simpa using h
        rw [List.foldl_cons]
        by_cases hx : x ∈ acc
        · have : sadd x acc = acc := by simp [sadd, hx]
          rw [this, ih xs acc hl, List.filter_cons_of_neg (by simpa using hx)]
        · have : sadd x acc = acc ++ [x] := by simp [sadd, hx]
          rw [this, ih xs _ hl, List.filter_cons_of_pos (by simpa using hx), List.eraseDups_cons, List.filter_filter]
          rw [List.append_assoc, List.singleton_append]
          congr 3
          apply List.filter_congr
          intro y hy
          by_cases e : y = x <;> simp [e]
  have := key l.length l [] (Nat.le_refl _)
  simpa [fromkeys] using this

section
variable {T : Texts N U} {pool : Pool N S U}

/-- the packages of some literals -/
def lookAll (pool : Pool N S U) (ls : List Int) : List (Package N S U) :=
  ls.filterMap (fun l => dget pool.idToPackage l.natAbs)

theorem idToString_pos {l : Int} {p : Package N S U} (hl : 0 < l) (h : dget pool.idToPackage l.natAbs = some p) :
    idToString T pool l = .ok ('+' :: nameVersion T p) := by
  unfold idToString
  rw [h]
  simp [hl, nameVersion]

theorem idToString_neg {l : Int} {p : Package N S U} (hl : l < 0) (h : dget pool.idToPackage l.natAbs = some p) :
    idToString T pool l = .ok ('-' :: nameVersion T p) := by
  unfold idToString
  rw [h]
  have : ¬ 0 < l := by omega
  simp [this, nameVersion]

theorem mapX_pos : ∀ {ls : List Int}, (∀ l ∈ ls, 0 < l ∧ ∃ p, dget pool.idToPackage l.natAbs = some p) →
    mapX (idToString T pool) ls = .ok ((lookAll pool ls).map (fun p => '+' :: nameVersion T p))
  | [], _ => rfl
  | l :: ls, h => by
    obtain ⟨h1, p, h2⟩ := h l (by simp)
    have ih := mapX_pos (ls := ls) (fun x hx => h x (by simp [hx]))
    have e : lookAll pool (l :: ls) = p :: lookAll pool ls := List.filterMap_cons_some (f := fun l : Int => dget pool.idToPackage l.natAbs) h2
    simp only [mapX, idToString_pos h1 h2, ih, e, List.map_cons]

theorem pretty_pos {ls : List Int} (h : ∀ l ∈ ls, 0 < l ∧ ∃ p, dget pool.idToPackage l.natAbs = some p) :
    prettyLiterals T pool ls true true = .ok (barred T (lookAll pool ls)) := by
  unfold prettyLiterals
  rw [mapX_pos h]
  simp only [if_true]
  rw [fromkeys_eraseDups]
  rfl

theorem nameVersion_key {p q : Package N S U} (h : p.key = q.key) : nameVersion T p = nameVersion T q := by
  have h1 : p.name = q.name := congrArg PKey.name h
  have h2 : p.version = q.version := congrArg PKey.version h
  rw [nameVersion, nameVersion, h1, h2]

theorem sort_min {a : Int} {l : List Int} (h : ∀ x ∈ l, a ≤ x) : sortBy id (a :: l) = a :: sortBy id l := by
  refine (((sortBy_perm id (a :: l)).trans ((sortBy_perm id l).symm.cons a))).eq_of_pairwise (le := fun a b => a ≤ b) ?_
    (sortBy_sorted id _) ?_
  · intro x y _ _ h1 h2; exact Int.le_antisymm h1 h2
  · rw [List.pairwise_cons]
    exact ⟨fun x hx => h x ((mem_sortBy id l x).1 hx), sortBy_sorted id l⟩

theorem sortBy_perm_id {l l' : List Int} (h : l.Perm l') : sortBy id l = sortBy id l' := by
  refine (((sortBy_perm id l).trans h).trans (sortBy_perm id l').symm).eq_of_pairwise (le := fun a b => a ≤ b) ?_
    (sortBy_sorted id _) (sortBy_sorted id _)
  intro x y _ _ h1 h2; exact Int.le_antisymm h1 h2

/-- two literals, sorted -/
theorem sort_two (a b : Int) : sortBy id [a, b] = [a, b] ∨ sortBy id [a, b] = [b, a] := by
  rcases Int.le_total a b with h | h
  · left
    rw [sort_min (by simpa using h)]; rfl
  · right
    rw [sortBy_perm_id (List.Perm.swap b a []), sort_min (by simpa using h)]; rfl

end

/-! ### The words of `describe`, one by one -/

section
variable {T : Texts N U} {pool : Pool N S U} {ls : List Int} {reqs : List (Requirement N U)} {s0 : List Char}

theorem describe_install (h : prettyLiterals T pool ls true true = .ok s0) :
    describe T pool ⟨ls, .jobInstall, reqs⟩ true = .ok ("Install command rule (".toList ++ s0 ++ ")".toList) := by
  unfold describe
  simp only [h, bind, Except.bind]

theorem describe_update (h : prettyLiterals T pool ls true true = .ok s0) :
    describe T pool ⟨ls, .jobUpdate, reqs⟩ true = .ok ("Update to latest command rule (".toList ++ s0 ++ ")".toList) := by
  unfold describe
  simp only [h, bind, Except.bind]

theorem describe_remove (h : prettyLiterals T pool ls true true = .ok s0) :
    describe T pool ⟨ls, .jobRemove, reqs⟩ true = .ok ("Remove command rule (".toList ++ s0 ++ ")".toList) := by
  unfold describe
  simp only [h, bind, Except.bind]

theorem describe_sameName {s1 : List Char} (h : prettyLiterals T pool ls true true = .ok s0)
    (h1 : prettyLiterals T pool (ls.map iabs) true true = .ok s1) :
    describe T pool ⟨ls, .packageSameName, reqs⟩ true = .ok ("Can only install one of: (".toList ++ s1 ++ ")".toList) := by
  unfold describe
  simp only [h, h1, bind, Except.bind]

theorem describe_requires {l : Int} {s1 s2 : List Char} (h : prettyLiterals T pool (l :: ls) true true = .ok s0)
    (h1 : prettyLiterals T pool [iabs l] true true = .ok s1) (h2 : prettyLiterals T pool ls true true = .ok s2) :
    describe T pool ⟨l :: ls, .packageRequires, reqs⟩ true = .ok (s1.tail ++ " requires (".toList ++ s2 ++ ")".toList) := by
  unfold describe
  simp only [h, h1, h2, bind, Except.bind]

theorem describe_conflicts {a b : Int} {s1 s2 : List Char} (h : prettyLiterals T pool [a, b] true true = .ok s0)
    (h1 : prettyLiterals T pool [a] false false = .ok s1) (h2 : prettyLiterals T pool [iabs b] true false = .ok s2) :
    describe T pool ⟨[a, b], .packageConflicts, reqs⟩ true = .ok (s1 ++ " conflicts with ".toList ++ s2) := by
  have h1' : prettyLiterals T pool (List.take 1 [a, b]) false false = .ok s1 := h1
  have h2' : prettyLiterals T pool ((List.drop 1 [a, b]).map iabs) true false = .ok s2 := h2
  unfold describe
  simp only [h, h1', h2', bind, Except.bind]

theorem describe_broken {l : Int} {s1 : List Char} (h : prettyLiterals T pool (l :: ls) true true = .ok s0)
    (h1 : idToString T pool (iabs l) = .ok s1) :
    describe T pool ⟨l :: ls, .packageBroken, reqs⟩ true =
      .ok (s1 ++ " was ignored because it depends on missing packages".toList) := by
  unfold describe
  simp only [h, h1, bind, Except.bind]

end

/-! ### The rules -/

section
variable {R : Run N S U} (hok : R.pool.OK R.avail) {T : Texts N U} {pool : Pool N S U}
  (hpool : pool.idToPackage = R.pool.idToPackage)
include hok hpool

theorem look_id {p : Package N S U} {i : Nat} (h : R.pool.packageId p = .ok i) :
    0 < i ∧ ∃ q, dget pool.idToPackage i = some q ∧ q.key = p.key ∧ R.pool.packageId q = .ok i := by
  obtain ⟨h1, -, q, h2, h3, -, h4⟩ := hok.ids.packageId_spec h
  refine ⟨h1, q, ?_, h3, h4⟩
  rw [hpool]
  unfold Pool.idToPkg at h2
  split at h2
  · next x hx => cases h2; exact hx
  · cases h2

theorem pretty_one {p : Package N S U} {i : Nat} (h : R.pool.packageId p = .ok i) :
    prettyLiterals T pool [(i : Int)] true true = .ok (barred T [p]) := by
  obtain ⟨h1, q, h2, h3, -⟩ := look_id hok hpool h
  rw [pretty_pos (by
    intro l hl
    rw [List.mem_singleton] at hl
    subst hl
    exact ⟨by omega, q, by simpa using h2⟩)]
  have : lookAll pool [(i : Int)] = [q] := by simp [lookAll, h2]
  rw [this]
  unfold barred
  simp only [List.map_cons, List.map_nil, nameVersion_key h3]

theorem pretty_two {p q : Package N S U} {i j : Nat} (hi : R.pool.packageId p = .ok i) (hj : R.pool.packageId q = .ok j) :
    prettyLiterals T pool [(i : Int), (j : Int)] true true = .ok (barred T [p, q]) := by
  obtain ⟨h1, a, h2, h3, -⟩ := look_id hok hpool hi
  obtain ⟨k1, b, k2, k3, -⟩ := look_id hok hpool hj
  rw [pretty_pos (by
    intro l hl
    simp only [List.mem_cons, List.not_mem_nil, or_false] at hl
    rcases hl with rfl | rfl
    · exact ⟨by omega, a, by simpa using h2⟩
    · exact ⟨by omega, b, by simpa using k2⟩)]
  have : lookAll pool [(i : Int), (j : Int)] = [a, b] := by simp [lookAll, h2, k2]
  rw [this]
  unfold barred
  simp only [List.map_cons, List.map_nil, nameVersion_key h3, nameVersion_key k3]

theorem idToString_id {p : Package N S U} {i : Nat} (h : R.pool.packageId p = .ok i) :
    idToString T pool (i : Int) = .ok ('+' :: nameVersion T p) ∧ idToString T pool (-(i : Int)) = .ok ('-' :: nameVersion T p) := by
  obtain ⟨h1, q, h2, h3, -⟩ := look_id hok hpool h
  constructor
  · rw [idToString_pos (p := q) (by omega) (by simpa using h2), nameVersion_key h3]
  · rw [idToString_neg (p := q) (by omega) (by simpa using h2), nameVersion_key h3]

theorem known_ids {ids : List Int} {P : Package N S U → Prop} (h : ∀ x, x ∈ ids ↔ ∃ d, P d ∧ ∃ j : Nat, R.pool.packageId d = .ok j ∧ x = j) :
    (∀ l ∈ sortBy id ids, 0 < l ∧ ∃ p, dget pool.idToPackage l.natAbs = some p) ∧
    ∀ k, (∃ p ∈ lookAll pool (sortBy id ids), p.key = k) ↔ ∃ d, P d ∧ (∃ j, R.pool.packageId d = .ok j) ∧ d.key = k := by
  constructor
  · intro l hl
    obtain ⟨d, -, j, hj, rfl⟩ := (h l).1 ((mem_sortBy _ _ _).1 hl)
    obtain ⟨h1, q, h2, -⟩ := look_id hok hpool hj
    exact ⟨by omega, q, by simpa using h2⟩
  · intro k
    constructor
    · rintro ⟨p, hp, rfl⟩
      obtain ⟨l, hl, hlp⟩ := List.mem_filterMap.1 hp
      obtain ⟨d, hd, j, hj, rfl⟩ := (h l).1 ((mem_sortBy _ _ _).1 hl)
      obtain ⟨-, q, h2, h3, -⟩ := look_id hok hpool hj
      simp only [Int.natAbs_natCast, h2, Option.some.injEq] at hlp
      subst hlp
      exact ⟨d, hd, ⟨j, hj⟩, h3.symm⟩
    · rintro ⟨d, hd, ⟨j, hj⟩, rfl⟩
      obtain ⟨-, q, h2, h3, -⟩ := look_id hok hpool hj
      refine ⟨q, List.mem_filterMap.2 ⟨(j : Int), (mem_sortBy _ _ _).2 ((h _).2 ⟨d, hd, j, hj, rfl⟩), by simpa using h2⟩, h3⟩

/-- the description of a rule that has requirements -/
theorem describe_fact (hinst : ∀ e ∈ R.installed, R.pool.packageId e.2 = .ok e.1) {rule : Rule N U} (h : R.Just rule)
    (hne : rule.requirements ≠ []) :
    ∃ f : Fact N S U, f.Holds R.avail R.pool.modifiers R.isInst R.jobs rule.requirements ∧
      describe T pool rule true = .ok (f.text T) := by
  have hreqs : ∀ {reqs : Reqs N U} {p : Package N S U} {r : Requirement N U}, R.Orig reqs p → (combine reqs r).getD [] ≠ [] →
      ∃ l, (combine reqs r).getD [] = l ++ [r] ∧ Trail R.avail R.pool.modifiers R.jobs l p := by
    intro reqs p r ho hn
    cases reqs with
    | none => exact absurd rfl hn
    | some l => exact ⟨l, rfl, ho⟩
  have habs : ∀ i : Nat, iabs (-(i : Int)) = (i : Int) := by intro i; unfold iabs; omega
  have hall : ∀ ls : List Int, (∀ l ∈ ls, ∃ p, dget pool.idToPackage l.natAbs = some p) →
      ∃ t, prettyLiterals T pool ls true true = .ok t := fun ls h => prettyLiterals_ok true true h
  have hkn : ∀ {p : Package N S U} {i : Nat}, R.pool.packageId p = .ok i → ∀ l ∈ [-(i : Int)],
      ∃ p, dget pool.idToPackage l.natAbs = some p := by
    intro p i hi l hl
    rw [List.mem_singleton.1 hl]
    obtain ⟨-, q, h2, -⟩ := look_id hok hpool hi
    exact ⟨q, by simpa using h2⟩
  have hone : ∀ p : Package N S U, nameVersion T p = (barred T [p]).tail := fun p => rfl
  have hleft : ∀ {p : Package N S U} {i : Nat}, R.pool.packageId p = .ok i →
      prettyLiterals T pool [-(i : Int)] false false = .ok (nameVersion T p) := by
    intro p i hi
    unfold prettyLiterals
    simp only [mapX, (idToString_id hok hpool hi).2]
    rfl
  have hright : ∀ {p : Package N S U} {i : Nat}, R.pool.packageId p = .ok i →
      prettyLiterals T pool [(i : Int)] true false = .ok ('+' :: nameVersion T p) := by
    intro p i hi
    unfold prettyLiterals
    simp only [mapX, (idToString_id hok hpool hi).1]
    rfl
  cases h with
  | @requires p reqs t req cands i ids ho ht hreq hc hne' hi hids =>
    obtain ⟨l, e1, e2⟩ := hreqs ho hne
    have hi0 := (look_id hok hpool hi).1
    obtain ⟨k1, k2⟩ := known_ids hok hpool (ids := ids) (P := fun d => d ∈ cands ∧ d.key ≠ p.key) (by
      intro x; rw [candidateIds_spec hids]
      constructor
      · rintro ⟨d, h1, h2, h3⟩; exact ⟨d, ⟨h1, h2⟩, h3⟩
      · rintro ⟨d, ⟨h1, h2⟩, h3⟩; exact ⟨d, h1, h2, h3⟩)
    have hlit : (mkRule (-(i : Int) :: ids) .packageRequires (combine reqs req)).literals = -(i : Int) :: sortBy id ids :=
      sort_min (by
        intro x hx
        have := (k1 x ((mem_sortBy _ _ _).2 hx)).1
        omega)
    refine ⟨.requires p (lookAll pool (sortBy id ids)), ⟨l, t, req, e1, e2, ht, hreq, ?_⟩, ?_⟩
    · intro k
      rw [k2 k]
      constructor
      · rintro ⟨d, ⟨h1, h2⟩, -, h3⟩
        obtain ⟨h4, h5⟩ := (mem_whatProvides hok hc d).1 h1
        exact ⟨d, h4, h3, h2, h5⟩
      · rintro ⟨d, h4, h3, h2, h5⟩
        exact ⟨d, ⟨(mem_whatProvides hok hc d).2 ⟨h4, h5⟩, h2⟩, Run.avail_id hok h4, h3⟩
    · obtain ⟨t0, ht0⟩ := hall (-(i : Int) :: sortBy id ids) (by
        intro x hx
        rcases List.mem_cons.1 hx with rfl | hx
        · obtain ⟨-, q, h2, -⟩ := look_id hok hpool hi
          exact ⟨q, by simpa using h2⟩
        · exact (k1 x hx).2)
      have e0 : mkRule (-(i : Int) :: ids) .packageRequires (combine reqs req) =
          ⟨-(i : Int) :: sortBy id ids, .packageRequires, (combine reqs req).getD []⟩ := by
        rw [← hlit]; rfl
      rw [e0, describe_requires ht0 (by rw [habs]; exact pretty_one hok hpool hi) (pretty_pos k1), text_requires, hone]
  | @broken p reqs t req i ho ht hreq hc hi =>
    obtain ⟨l, e1, e2⟩ := hreqs ho hne
    refine ⟨.missing p, ⟨l, t, req, e1, e2, ht, hreq, ?_⟩, ?_⟩
    · intro q hq hm
      have := (mem_whatProvides hok hc q).2 ⟨hq, hm⟩
      cases this
    · obtain ⟨t0, ht0⟩ := hall [-(i : Int)] (hkn hi)
      have e0 : mkRule [-(i : Int)] .packageBroken (combine reqs req) =
          ⟨[-(i : Int)], .packageBroken, (combine reqs req).getD []⟩ := rfl
      rw [e0, describe_broken ht0 (by rw [habs]; exact (idToString_id hok hpool hi).1), text_missing]
  | @sameName p reqs q i j ho hname hk hi hj =>
    obtain ⟨l, e1, e2⟩ := hreqs ho hne
    obtain ⟨t0, ht0⟩ := hall (sortBy id [-(i : Int), -(j : Int)]) (by
      intro x hx
      rw [mem_sortBy] at hx
      rcases List.mem_cons.1 hx with rfl | hx
      · exact hkn hi _ (by simp)
      · exact hkn hj _ hx)
    have e0 : mkRule [-(i : Int), -(j : Int)] .packageSameName (combine reqs (Requirement.ofName .conflict p.name)) =
        ⟨sortBy id [-(i : Int), -(j : Int)], .packageSameName, (combine reqs (Requirement.ofName .conflict p.name)).getD []⟩ := rfl
    rcases sort_two (-(i : Int)) (-(j : Int)) with e | e
    · refine ⟨.oneOf p q, ⟨hname.symm, fun e => hk e.symm, l, e1, Or.inl e2⟩, ?_⟩
      rw [e0, text_oneOf, describe_sameName ht0 (s1 := barred T [p, q]) ?_]
      rw [e, List.map_cons, List.map_cons, List.map_nil, habs, habs]
      exact pretty_two hok hpool hi hj
    · refine ⟨.oneOf q p, ⟨hname, hk, l, by rw [hname]; exact e1, Or.inr e2⟩, ?_⟩
      rw [e0, text_oneOf, describe_sameName ht0 (s1 := barred T [q, p]) ?_]
      rw [e, List.map_cons, List.map_cons, List.map_nil, habs, habs]
      exact pretty_two hok hpool hj hi
  | @conflict p reqs t req cands q i j ho ht hreq hc hq hk hi hj =>
    obtain ⟨l, e1, e2⟩ := hreqs ho hne
    obtain ⟨hqa, hqm⟩ := (mem_whatProvides hok hc q).1 hq
    have e0 : mkRule [-(i : Int), -(j : Int)] .packageConflicts (combine reqs req) =
        ⟨sortBy id [-(i : Int), -(j : Int)], .packageConflicts, (combine reqs req).getD []⟩ := rfl
    obtain ⟨t0, ht0⟩ := hall (sortBy id [-(i : Int), -(j : Int)]) (by
      intro x hx
      rw [mem_sortBy] at hx
      rcases List.mem_cons.1 hx with rfl | hx
      · exact hkn hi _ (by simp)
      · exact hkn hj _ hx)
    rcases sort_two (-(i : Int)) (-(j : Int)) with e | e
    · refine ⟨.conflict p q, ⟨fun e => hk e.symm, p, q, Or.inl ⟨rfl, rfl⟩, l, t, req, e1, e2, ht, hreq, hqa, hqm⟩, ?_⟩
      rw [e] at e0 ht0
      rw [e0, text_conflict, describe_conflicts ht0 (hleft hi) (by rw [habs]; exact hright hj)]
    · refine ⟨.conflict q p, ⟨hk, p, q, Or.inr ⟨rfl, rfl⟩, l, t, req, e1, e2, ht, hreq, hqa, hqm⟩, ?_⟩
      rw [e] at e0 ht0
      rw [e0, text_conflict, describe_conflicts ht0 (hleft hj) (by rw [habs]; exact hright hi)]
  | @jobInstall j r ps ids hj hk hr hps hne' hids =>
    obtain ⟨k1, k2⟩ := known_ids hok hpool (ids := ids) (P := fun d => d ∈ ps) (by
      intro x; rw [idsOfAll_spec hids])
    refine ⟨.install (lookAll pool (sortBy id ids)), ⟨j, hj, hk, r, hr, rfl, ?_⟩, ?_⟩
    · intro k
      rw [k2 k]
      constructor
      · rintro ⟨d, h1, -, h3⟩
        obtain ⟨h4, h5⟩ := (Run.mem_jobProviders hok hps d).1 h1
        exact ⟨d, h4, h3, h5⟩
      · rintro ⟨d, h4, h3, h5⟩
        exact ⟨d, (Run.mem_jobProviders hok hps d).2 ⟨h4, h5⟩, Run.avail_id hok h4, h3⟩
    · have e0 : mkRule ids .jobInstall (some [r]) = ⟨sortBy id ids, .jobInstall, [r]⟩ := rfl
      rw [e0, describe_install (pretty_pos k1), text_install]
  | @jobRemove j r ps p i hj hk hr hps hp hi =>
    obtain ⟨h1, h2⟩ := (Run.mem_jobProviders hok hps p).1 hp
    refine ⟨.remove p, ⟨j, hj, hk, r, hr, rfl, h1, h2⟩, ?_⟩
    have e0 : mkRule [-(i : Int)] .jobRemove (some [r]) = ⟨[-(i : Int)], .jobRemove, [r]⟩ := rfl
    have : prettyLiterals T pool [-(i : Int)] true true = .ok ('-' :: nameVersion T p) := by
      unfold prettyLiterals
      simp only [mapX, (idToString_id hok hpool hi).2]
      rfl
    rw [e0, describe_remove this, text_remove]
  | @jobUpdate j r ps p i hj hk hr hps hp hi =>
    refine ⟨.update p, ⟨j, hj, hk, r, hr, rfl, Run.maxPkg_target hok hinst hps hp⟩, ?_⟩
    have e0 : mkRule [(i : Int)] .jobUpdate (some [r]) = ⟨[(i : Int)], .jobUpdate, [r]⟩ := rfl
    rw [e0, describe_update (pretty_one hok hpool hi), text_update]
end

theorem trail_active {m : Modifiers N} {avail : List (Package N S U)} {jobs : List (Job N U)} {l : List (Requirement N U)}
    {p : Package N S U} (h : Trail avail (activeModifiers m) jobs l p) : Trail avail (some m) jobs l p := by
  induction h with
  | job h1 h2 h3 h4 h5 => exact .job h1 h2 h3 h4 h5
  | dep _ h2 h3 h4 h5 ih => exact .dep ih h2 h3 h4 ((meets_active _ _ _ _).1 h5)

theorem Fact.Holds.active {m : Modifiers N} {avail : List (Package N S U)} {installed : PKey N S U → Prop}
    {jobs : List (Job N U)} {reqs : List (Requirement N U)} {f : Fact N S U}
    (h : f.Holds avail (activeModifiers m) installed jobs reqs) : f.Holds avail (some m) installed jobs reqs := by
  cases f with
  | install ps => exact h
  | update p => exact h
  | remove p => exact h
  | oneOf p q =>
    obtain ⟨h1, h2, l, h3, h4 | h4⟩ := h
    · exact ⟨h1, h2, l, h3, Or.inl (trail_active h4)⟩
    · exact ⟨h1, h2, l, h3, Or.inr (trail_active h4)⟩
  | requires p ps =>
    obtain ⟨l, t, r, h1, h2, h3, h4, h5⟩ := h
    refine ⟨l, t, r, h1, trail_active h2, h3, h4, ?_⟩
    intro k
    rw [h5 k]
    simp only [meets_active]
  | conflict p q =>
    obtain ⟨h0, a, b, hab, l, t, r, h1, h2, h3, h4, h5, h6⟩ := h
    exact ⟨h0, a, b, hab, l, t, r, h1, trail_active h2, h3, h4, h5, (meets_active _ _ _ _).1 h6⟩
  | missing p =>
    obtain ⟨l, t, r, h1, h2, h3, h4, h5⟩ := h
    exact ⟨l, t, r, h1, trail_active h2, h3, h4, fun q hq hm => h5 q hq ((meets_active _ _ _ _).2 hm)⟩

/-! ### The text of an explanation -/

theorem printed_sublist (e : Evidence N U) (p : List Nat) : (printed e p).Sublist p := by
  have key : ∀ (p : List Nat) (d : Dict (List Int) Nat),
      ∃ l, (p.foldl (fun d c => dsetdefault d (e.key c) c) d).map Prod.snd = d.map Prod.snd ++ l ∧ l.Sublist p := by
    intro p
    induction p with
    | nil => intro d; exact ⟨[], by simp⟩
    | cons c cs ih =>
      intro d
      obtain ⟨l, h1, h2⟩ := ih (dsetdefault d (e.key c) c)
      rw [List.foldl_cons, h1]
      unfold dsetdefault
      cases hg : dget d (e.key c) with
      | some v => exact ⟨l, rfl, h2.cons c⟩
      | none =>
        refine ⟨c :: l, ?_, h2.cons_cons c⟩
        simp only [mem_dset_new hg, List.map_append, List.map_cons, List.map_nil, List.append_assoc, List.cons_append,
          List.nil_append]
  obtain ⟨l, h1, h2⟩ := key p []
  unfold printed
  rw [h1]
  exact h2

variable {rs : List (Repository N S U)} {s : DependencySolver N S U}

/-- a rule of an explanation, printed -/
theorem rule_fact (hs : SolverFor rs s) {T : Texts N U} {o : Orders} {q : Request N U} {st : Setup N S U}
    (hst : createRules s o (s.solvePool q) (convertUpgrade q s.remote s.installed) = .ok st) {pool : Pool N S U}
    (hpool : pool.idToPackage = s.pool.idToPackage) {r : Rule N U} (hr : r ∈ st.gen.rules) (hne : r.requirements ≠ []) :
    ∃ f : Fact N S U, f.Holds (allPackages rs) (some q.modifiers) (InstalledKeys s) (effectiveJobs s q) r.requirements ∧
      ruleToString T pool r true = .ok (lineText T r.requirements f) := by
  have hb := hs.solvePool q
  have hspec := createRules_spec hb hs hst
  have hm := hb.modifiers
  let R : Run N S U := ⟨s.solvePool q, allPackages rs, effectiveJobs s q, st.installedDict⟩
  have hj := (Run.iterRules_good (R := R) hb.ok hspec.gen).just r hr
  obtain ⟨f, h1, h2⟩ := describe_fact (R := R) (T := T) hb.ok (pool := pool) hpool (fun e he => hspec.ids e he) hj hne
  have hI : R.isInst = InstalledKeys s := by
    funext k
    exact propext (hspec.inst k)
  refine ⟨f, ?_, ?_⟩
  · rw [hI] at h1
    have h1 : f.Holds (allPackages rs) (s.solvePool q).modifiers (InstalledKeys s) (effectiveJobs s q) r.requirements := h1
    rw [hm] at h1
    exact h1.active
  · unfold ruleToString
    simp only [h2, bind, Except.bind]
    rw [if_neg (by simpa using hne)]
    rfl

/-- a block of the text: a heading, and one line per rule -/
def blockText (T : Texts N U) (b : List (Rule N U × Fact N S U)) : List Char :=
  joinWith "\n".toList ("Conflicting requirements:".toList :: b.map (fun e => lineText T e.1.requirements e.2)) ++ "\n".toList

/-- **C88**. The text of an explanation, printed with the pool, consists of one block per path. The lines of a block stand
for the rules along the path, in order (of rules with the same literals, one); each line states a fact that is true of the
available packages and of the request, together with the requirements that lead to it. -/
theorem C88_text (hs : SolverFor rs s) {T : Texts N U} {o : Orders} {xo : XOrders} {q : Request N U}
    {x : Explanation N U} (h : s.solveExplained T o xo q = .error (.unsat x)) {pool : Pool N S U}
    (hpool : pool.idToPackage = s.pool.idToPackage) {text : List Char} {x' : Explanation N U}
    (ht : x.toText T (some pool) = .ok (text, x')) :
    ∃ blocks : List (List (Rule N U × Fact N S U)),
      text = joinWith "\n".toList (blocks.map (blockText T)) ∧
      (∀ b ∈ blocks, ∀ e ∈ b, e.2.Holds (allPackages rs) (some q.modifiers) (InstalledKeys s) (effectiveJobs s q)
        e.1.requirements) ∧
      List.Forall₂ (fun chain b => (b.map Prod.fst).Sublist chain ∧
        ∀ r ∈ chain, ∃ e ∈ b, ∀ l, l ∈ e.1.literals ↔ l ∈ r.literals) x.chains blocks := by
  obtain ⟨st, sv, u, h1, h2, h3⟩ := explanation_ok hs h
  have hF : ∀ c, ∃ f : Fact N S U, ∀ r, c ∈ x.details → x.evidence.rule c = some r →
      f.Holds (allPackages rs) (some q.modifiers) (InstalledKeys s) (effectiveJobs s q) r.requirements ∧
      Explanation.line T (some pool) x.evidence c = .ok (lineText T r.requirements f) := by
    intro c
    by_cases hc : c ∈ x.details
    · obtain ⟨-, -, -, r, k1, k2, k3, -⟩ := h2.details c hc
      obtain ⟨f, k4, k5⟩ := rule_fact hs (T := T) h1 hpool k2 k3
      refine ⟨f, fun r' _ hr' => ?_⟩
      rw [k1] at hr'
      cases hr'
      refine ⟨k4, ?_⟩
      unfold Explanation.line
      simp only [k1]
      exact k5
    · exact ⟨.install [], fun r k => absurd k hc⟩
  choose F hF using hF
  let entry : Nat → Option (Rule N U × Fact N S U) := fun c => (x.evidence.rule c).map (fun r => (r, F c))
  let g : Nat → List Char := fun c => match x.evidence.rule c with
    | some r => lineText T r.requirements (F c)
    | none => []
  have hg : ∀ c ∈ x.details, Explanation.line T (some pool) x.evidence c = .ok (g c) := by
    intro c hc
    obtain ⟨-, -, -, r, k1, -⟩ := h2.details c hc
    rw [(hF c r hc k1).2]
    simp only [g, k1]
  obtain ⟨m', k1, -⟩ := h2.toText h3 hg
  rw [ht] at k1
  cases k1
  have hmem : ∀ p ∈ x.paths, ∀ c ∈ p, c ∈ x.details ∧ ∃ r, x.evidence.rule c = some r := by
    intro p hp c hc
    obtain ⟨-, -, -, r, k1, -⟩ := h2.details c (h2.path_mem hp hc)
    exact ⟨h2.path_mem hp hc, r, k1⟩
  refine ⟨x.paths.map (fun p => (printed x.evidence p).filterMap entry), ?_, ?_, ?_⟩
  · rw [List.map_map]
    congr 1
    apply List.map_congr_left
    intro p hp
    unfold block
    show _ = blockText T _
    unfold blockText
    have : ∀ l : List Nat, (∀ c ∈ l, c ∈ p) →
        l.map g = (l.filterMap entry).map (fun e => lineText T e.1.requirements e.2) := by
      intro l
      induction l with
      | nil => intro _; rfl
      | cons c cs ih =>
        intro hl
        obtain ⟨-, r, hr⟩ := hmem p hp c (hl c (by simp))
        have hc : entry c = some (r, F c) := by simp only [entry, hr, Option.map_some]
        rw [List.filterMap_cons_some hc, List.map_cons, List.map_cons, ih (fun c hc => hl c (by simp [hc]))]
        congr 1
        simp only [g, hr]
    rw [this _ (fun c hc => mem_printed hc)]
  · intro b hb e he
    obtain ⟨p, hp, rfl⟩ := List.mem_map.1 hb
    obtain ⟨c, hc, hce⟩ := List.mem_filterMap.1 he
    obtain ⟨h4, r, h5⟩ := hmem p hp c (mem_printed hc)
    simp only [entry, h5, Option.map_some, Option.some.injEq] at hce
    subst hce
    exact (hF c r h4 h5).1
  · unfold Explanation.chains
    rw [List.forall₂_map_left_iff, List.forall₂_map_right_iff, List.forall₂_same]
    intro p hp
    constructor
    · rw [List.map_filterMap]
      have : (fun c => (entry c).map Prod.fst) = x.evidence.rule := by
        funext c
        simp only [entry, Option.map_map]
        cases x.evidence.rule c <;> rfl
      rw [this]
      exact (printed_sublist x.evidence p).filterMap _
    · intro r hr
      obtain ⟨c, hc, hcr⟩ := List.mem_filterMap.1 hr
      obtain ⟨d, hd1, hd2⟩ := printed_same (e := x.evidence) hc
      have hdp := mem_printed hd1
      obtain ⟨-, -, -, r', k1, k2, k3, k4⟩ := h2.details d (h2.path_mem hp hdp)
      obtain ⟨-, -, -, r'', j1, j2, j3, j4⟩ := h2.details c (h2.path_mem hp hc)
      rw [hcr] at j1
      cases j1
      refine ⟨(r', F d), List.mem_filterMap.2 ⟨d, hd1, by simp only [entry, k1, Option.map_some]⟩, ?_⟩
      intro l
      rw [← k4, hd2, j4]

/-! ### Lines cannot be misread -/

/-- What a reader takes from a fact: names and versions, each package once. -/
inductive Said where
  | install (alternatives : List (List Char × List Char))
  | update (p : List Char × List Char)
  | remove (p : List Char × List Char)
  | oneOf (ps : List (List Char × List Char))
  | requires (p : List Char × List Char) (alternatives : List (List Char × List Char))
  | conflict (p q : List Char × List Char)
  | missing (p : List Char × List Char)
deriving DecidableEq

/-- name and version, as they are printed -/
def nv (T : Texts N U) (p : Package N S U) : List Char × List Char := (T.name p.name, T.version p.version)

def Fact.said (T : Texts N U) : Fact N S U → Said
  | .install ps => .install (ps.map (nv T)).eraseDups
  | .update p => .update (nv T p)
  | .remove p => .remove (nv T p)
  | .oneOf p q => .oneOf [nv T p, nv T q].eraseDups
  | .requires p ps => .requires (nv T p) (ps.map (nv T)).eraseDups
  | .conflict p q => .conflict (nv T p) (nv T q)
  | .missing p => .missing (nv T p)

/-- the packages a fact speaks about -/
def Fact.packages : Fact N S U → List (Package N S U)
  | .install ps => ps
  | .update p => [p]
  | .remove p => [p]
  | .oneOf p q => [p, q]
  | .requires p ps => p :: ps
  | .conflict p q => [p, q]
  | .missing p => [p]

theorem eraseDups_map {α β : Type} [BEq α] [LawfulBEq α] [BEq β] [LawfulBEq β] {f : α → β} : ∀ (n : Nat) (l : List α), l.length ≤ n →
    (∀ x ∈ l, ∀ y ∈ l, f x = f y → x = y) → (l.map f).eraseDups = l.eraseDups.map f := by
  intro n
  induction n with
  | zero =>
    intro l h _
    have : l = [] := List.length_eq_zero_iff.1 (by omega)
    subst this; simp
  | succ n ih =>
    intro l h hf
    cases l with
    | nil => simp
    | cons x xs =>
      rw [List.map_cons, List.eraseDups_cons, List.eraseDups_cons, List.map_cons]
      congr 1
      have hfil : (xs.map f).filter (fun b => !b == f x) = (xs.filter (fun b => !b == x)).map f := by
        rw [List.filter_map]
        congr 1
        apply List.filter_congr
        intro y hy
        by_cases e : y = x
        · simp [e]
        · have : f y ≠ f x := fun k => e (hf y (by simp [hy]) x (by simp) k)
          simp [e, this]
      rw [hfil]
      refine ih _ ?_ ?_
      · have := List.length_filter_le (fun b => !b == x) xs
        simp only [List.length_cons] at h
        omega
      · intro a ha b hb
        exact hf a (by simp [(List.mem_filter.1 ha).1]) b (by simp [(List.mem_filter.1 hb).1])

/-- a printed name and version -/
def signed (x : List Char × List Char) : List Char := '+' :: (x.1 ++ '-' :: x.2)

/-- a pair as it comes from an ordinary package -/
def PlainPair (x : List Char × List Char) : Prop :=
  ' ' ∉ x.1 ∧ ∃ u b, x.2 = u ++ '-' :: b ∧ '-' ∉ u ∧ '-' ∉ b ∧ ' ' ∉ u ∧ ' ' ∉ b

theorem Ordinary.plain {T : Texts N U} {p : Package N S U} (h : Ordinary T p) : PlainPair (nv T p) := by
  obtain ⟨u, b, hv, hc⟩ := h.version
  refine ⟨fun k => (h.name _ k).2.2 rfl, u, b, hv, ?_, ?_, ?_, ?_⟩
  · exact fun k => (hc _ (List.mem_append_left _ k)).2.2.2.1 rfl
  · exact fun k => (hc _ (List.mem_append_right _ k)).2.2.2.1 rfl
  · exact fun k => (hc _ (List.mem_append_left _ k)).2.2.1 rfl
  · exact fun k => (hc _ (List.mem_append_right _ k)).2.2.1 rfl

theorem plain_blank {x : List Char × List Char} (h : PlainPair x) : ' ' ∉ x.1 ++ '-' :: x.2 := by
  obtain ⟨h1, u, b, e, -, -, h2, h3⟩ := h
  rw [e]
  simp only [List.mem_append, List.mem_cons]
  rintro (k | k | k | k | k)
  · exact h1 k
  · revert k; decide
  · exact h2 k
  · revert k; decide
  · exact h3 k

theorem plain_inj {x y : List Char × List Char} (hx : PlainPair x) (hy : PlainPair y)
    (h : x.1 ++ '-' :: x.2 = y.1 ++ '-' :: y.2) : x = y := by
  obtain ⟨-, u, b, e, h1, h2, -⟩ := hx
  obtain ⟨-, u', b', e', h1', h2', -⟩ := hy
  rw [e, e'] at h
  obtain ⟨k1, k2⟩ := nameVersion_inj h1 h1' h2 h2' h
  exact Prod.ext k1 (by rw [e, e', k2])

/-- parts without blanks, separated by bars -/
theorem bars_inj : ∀ {a b : List (List Char)}, (∀ x ∈ a, ' ' ∉ x ∧ x ≠ []) → (∀ x ∈ b, ' ' ∉ x ∧ x ≠ []) →
    joinWith [' ', '|', ' '] a = joinWith [' ', '|', ' '] b → a = b
  | [], [], _, _, _ => rfl
  | [], [y], _, hb, h => absurd h.symm (hb y (by simp)).2
  | [x], [], ha, _, h => absurd h (ha x (by simp)).2
  | [], y :: z :: ys, _, _, h => by simp [joinWith] at h
  | x :: z :: xs, [], _, _, h => by simp [joinWith] at h
  | [x], [y], _, _, h => by simpa [joinWith] using h
  | [x], y :: z :: ys, ha, _, h => by
    have := (ha x (by simp)).1
    simp only [joinWith] at h
    rw [h] at this
    simp at this
  | x :: z :: xs, [y], _, hb, h => by
    have := (hb y (by simp)).1
    simp only [joinWith] at h
    rw [← h] at this
    simp at this
  | x :: z :: xs, y :: w :: ys, ha, hb, h => by
    simp only [joinWith, List.append_assoc, List.cons_append, List.nil_append] at h
    obtain ⟨h1, h2⟩ := split_at (ha x (by simp)).1 (hb y (by simp)).1 h
    simp only [List.cons.injEq, true_and] at h2
    have := bars_inj (a := z :: xs) (b := w :: ys) (fun v hv => ha v (by simp [hv])) (fun v hv => hb v (by simp [hv])) h2
    rw [h1, this]

theorem barred_eq {T : Texts N U} {ps : List (Package N S U)} (h : ∀ p ∈ ps, Ordinary T p) :
    barred T ps = joinWith [' ', '|', ' '] ((ps.map (nv T)).eraseDups.map signed) := by
  have h1 : ps.map (fun p => '+' :: nameVersion T p) = (ps.map (nv T)).map signed := by
    rw [List.map_map]; rfl
  unfold barred
  rw [h1, eraseDups_map _ _ (Nat.le_refl _)]
  · rfl
  · intro x hx y hy e
    obtain ⟨p, hp, rfl⟩ := List.mem_map.1 hx
    obtain ⟨q, hq, rfl⟩ := List.mem_map.1 hy
    exact plain_inj (h p hp).plain (h q hq).plain (by simpa [signed] using e)

theorem signed_inj : ∀ {a b : List (List Char × List Char)}, (∀ x ∈ a, PlainPair x) → (∀ x ∈ b, PlainPair x) →
    a.map signed = b.map signed → a = b
  | [], [], _, _, _ => rfl
  | [], _ :: _, _, _, h => by simp at h
  | _ :: _, [], _, _, h => by simp at h
  | x :: xs, y :: ys, ha, hb, h => by
    simp only [List.map_cons, List.cons.injEq] at h
    rw [plain_inj (ha x (by simp)) (hb y (by simp)) (by simpa [signed] using h.1),
      signed_inj (fun v hv => ha v (by simp [hv])) (fun v hv => hb v (by simp [hv])) h.2]

theorem barred_inj {T : Texts N U} {ps qs : List (Package N S U)} (hp : ∀ p ∈ ps, Ordinary T p) (hq : ∀ p ∈ qs, Ordinary T p) :
    barred T ps = barred T qs ↔ (ps.map (nv T)).eraseDups = (qs.map (nv T)).eraseDups := by
  have hpl : ∀ {ps : List (Package N S U)}, (∀ p ∈ ps, Ordinary T p) → ∀ x ∈ (ps.map (nv T)).eraseDups, PlainPair x := by
    intro ps hp x hx
    obtain ⟨p, h1, rfl⟩ := List.mem_map.1 (List.mem_eraseDups.1 hx)
    exact (hp p h1).plain
  have hbl : ∀ {ps : List (Package N S U)}, (∀ p ∈ ps, Ordinary T p) →
      ∀ x ∈ (ps.map (nv T)).eraseDups.map signed, ' ' ∉ x ∧ x ≠ [] := by
    intro ps hp x hx
    obtain ⟨y, hy, rfl⟩ := List.mem_map.1 hx
    refine ⟨?_, by simp [signed]⟩
    intro k
    rcases List.mem_cons.1 k with k | k
    · revert k; decide
    · exact plain_blank (hpl hp y hy) k
  rw [barred_eq hp, barred_eq hq]
  constructor
  · intro h
    exact signed_inj (hpl hp) (hpl hq) (bars_inj (hbl hp) (hbl hq) h)
  · intro h; rw [h]

theorem nameVersion_iff {T : Texts N U} {p q : Package N S U} (hp : Ordinary T p) (hq : Ordinary T q) :
    nameVersion T p = nameVersion T q ↔ nv T p = nv T q := by
  constructor
  · intro h; exact plain_inj hp.plain hq.plain h
  · intro h
    have h1 : T.name p.name = T.name q.name := congrArg Prod.fst h
    have h2 : T.version p.version = T.version q.version := congrArg Prod.snd h
    rw [nameVersion, nameVersion, h1, h2]

/-- the text of a fact: the first word, and the rest -/
def firstWord (T : Texts N U) : Fact N S U → List Char
  | .install _ => ['I', 'n', 's', 't', 'a', 'l', 'l']
  | .update _ => ['U', 'p', 'd', 'a', 't', 'e']
  | .remove _ => ['R', 'e', 'm', 'o', 'v', 'e']
  | .oneOf _ _ => ['C', 'a', 'n']
  | .requires p _ => nameVersion T p
  | .conflict p _ => nameVersion T p
  | .missing p => '+' :: nameVersion T p

def otherWords (T : Texts N U) : Fact N S U → List Char
  | .install ps => "command rule (".toList ++ barred T ps ++ ")".toList
  | .update p => "to latest command rule (".toList ++ barred T [p] ++ ")".toList
  | .remove p => "command rule (".toList ++ '-' :: nameVersion T p ++ ")".toList
  | .oneOf p q => "only install one of: (".toList ++ barred T [p, q] ++ ")".toList
  | .requires _ ps => "requires (".toList ++ barred T ps ++ ")".toList
  | .conflict _ q => "conflicts with ".toList ++ '+' :: nameVersion T q
  | .missing _ => "was ignored because it depends on missing packages".toList

theorem text_words (T : Texts N U) (f : Fact N S U) : f.text T = firstWord T f ++ ' ' :: otherWords T f := by
  cases f with
  | install ps => rfl
  | update p => rfl
  | remove p => rfl
  | oneOf p q => rfl
  | requires p ps =>
    rw [text_requires, List.append_assoc, List.append_assoc]
    rfl
  | conflict p q =>
    rw [text_conflict, List.append_assoc]
    rfl
  | missing p => rfl

/-- the first letters of the rest -/
def tag : Fact N S U → List Char
  | .install _ => ['c', 'o', 'm']
  | .update _ => ['t', 'o', ' ']
  | .remove _ => ['c', 'o', 'm']
  | .oneOf _ _ => ['o', 'n', 'l']
  | .requires _ _ => ['r', 'e', 'q']
  | .conflict _ _ => ['c', 'o', 'n']
  | .missing _ => ['w', 'a', 's']

theorem take_tag (T : Texts N U) (f : Fact N S U) : (otherWords T f).take 3 = tag f := by
  cases f <;> rfl

theorem firstWord_blank {T : Texts N U} {f : Fact N S U} (h : ∀ p ∈ f.packages, Ordinary T p) : ' ' ∉ firstWord T f := by
  cases f with
  | install ps => simp [firstWord]
  | update p => simp [firstWord]
  | remove p => simp [firstWord]
  | oneOf p q => simp [firstWord]
  | requires p ps => exact plain_blank (h p (by simp [Fact.packages])).plain
  | conflict p q => exact plain_blank (h p (by simp [Fact.packages])).plain
  | missing p =>
    intro k
    rcases List.mem_cons.1 k with k | k
    · revert k; decide
    · exact plain_blank (h p (by simp [Fact.packages])).plain k

theorem wrap_inj {a x y c : List Char} : a ++ x ++ c = a ++ y ++ c ↔ x = y := by
  simp only [List.append_assoc, List.append_cancel_left_eq, List.append_cancel_right_eq]

theorem fact_inj {T : Texts N U} {f f' : Fact N S U} (h : ∀ p ∈ f.packages, Ordinary T p)
    (h' : ∀ p ∈ f'.packages, Ordinary T p) : f.text T = f'.text T ↔ f.said T = f'.said T := by
  have split : f.text T = f'.text T ↔ firstWord T f = firstWord T f' ∧ otherWords T f = otherWords T f' := by
    rw [text_words, text_words]
    constructor
    · intro e; exact split_at (firstWord_blank h) (firstWord_blank h') e
    · rintro ⟨e1, e2⟩; rw [e1, e2]
  rw [split]
  have htag : otherWords T f = otherWords T f' → tag f = tag f' := by
    intro e; rw [← take_tag T f, ← take_tag T f', e]
  have single : ∀ {p q : Package N S U}, Ordinary T p → Ordinary T q → (barred T [p] = barred T [q] ↔ nv T p = nv T q) := by
    intro p q hp hq
    rw [barred_inj (by simpa using hp) (by simpa using hq), List.map_cons, List.map_nil, List.map_cons, List.map_nil,
      List.eraseDups_cons, List.eraseDups_cons]
    simp
  cases f <;> cases f'
  case install.install ps qs =>
    rw [show Fact.said T (.install ps) = .install (ps.map (nv T)).eraseDups from rfl,
      show Fact.said T (.install qs) = .install (qs.map (nv T)).eraseDups from rfl, Said.install.injEq,
      ← barred_inj (ps := ps) (qs := qs) h h']
    exact ⟨fun e => wrap_inj.1 e.2, fun e => ⟨rfl, wrap_inj.2 e⟩⟩
  case update.update p q =>
    rw [show Fact.said T (.update p) = .update (nv T p) from rfl,
      show Fact.said T (.update q) = .update (nv T q) from rfl, Said.update.injEq,
      ← single (h p (by simp [Fact.packages])) (h' q (by simp [Fact.packages]))]
    exact ⟨fun e => wrap_inj.1 e.2, fun e => ⟨rfl, wrap_inj.2 e⟩⟩
  case remove.remove p q =>
    rw [show Fact.said T (.remove p) = .remove (nv T p) from rfl,
      show Fact.said T (.remove q) = .remove (nv T q) from rfl, Said.remove.injEq,
      ← nameVersion_iff (h p (by simp [Fact.packages])) (h' q (by simp [Fact.packages]))]
    exact ⟨fun e => (List.cons.inj (wrap_inj.1 e.2)).2, fun e => ⟨rfl, wrap_inj.2 (by rw [e])⟩⟩
  case oneOf.oneOf p q p' q' =>
    rw [show Fact.said T (.oneOf p q) = .oneOf ([p, q].map (nv T)).eraseDups from rfl,
      show Fact.said T (.oneOf p' q') = .oneOf ([p', q'].map (nv T)).eraseDups from rfl, Said.oneOf.injEq,
      ← barred_inj (ps := [p, q]) (qs := [p', q']) h h']
    exact ⟨fun e => wrap_inj.1 e.2, fun e => ⟨rfl, wrap_inj.2 e⟩⟩
  case requires.requires p ps q qs =>
    rw [show Fact.said T (.requires p ps) = .requires (nv T p) (ps.map (nv T)).eraseDups from rfl,
      show Fact.said T (.requires q qs) = .requires (nv T q) (qs.map (nv T)).eraseDups from rfl, Said.requires.injEq,
      ← barred_inj (fun p hp => h p (by simp [Fact.packages, hp])) (fun p hp => h' p (by simp [Fact.packages, hp])),
      ← nameVersion_iff (h p (by simp [Fact.packages])) (h' q (by simp [Fact.packages]))]
    exact ⟨fun e => ⟨e.1, wrap_inj.1 e.2⟩, fun e => ⟨e.1, wrap_inj.2 e.2⟩⟩
  case conflict.conflict p q p' q' =>
    rw [show Fact.said T (.conflict p q) = .conflict (nv T p) (nv T q) from rfl,
      show Fact.said T (.conflict p' q') = .conflict (nv T p') (nv T q') from rfl, Said.conflict.injEq,
      ← nameVersion_iff (h p (by simp [Fact.packages])) (h' p' (by simp [Fact.packages])),
      ← nameVersion_iff (h q (by simp [Fact.packages])) (h' q' (by simp [Fact.packages]))]
    exact ⟨fun e => ⟨e.1, (List.cons.inj (List.append_cancel_left e.2)).2⟩,
      fun e => ⟨e.1, congrArg (fun z => "conflicts with ".toList ++ '+' :: z) e.2⟩⟩
  case missing.missing p q =>
    rw [show Fact.said T (.missing p) = .missing (nv T p) from rfl,
      show Fact.said T (.missing q) = .missing (nv T q) from rfl, Said.missing.injEq,
      ← nameVersion_iff (h p (by simp [Fact.packages])) (h' q (by simp [Fact.packages]))]
    exact ⟨fun e => (List.cons.inj e.1).2, fun e => ⟨congrArg (List.cons '+') e, rfl⟩⟩
  all_goals
    constructor
    · rintro ⟨e1, e2⟩
      have ht := htag e2
      first
        | exact absurd ht (by simp only [tag]; decide)
        | exact absurd e1 (by simp only [firstWord]; decide)
    · intro e
      cases e

/-- a requirement as it is printed between quotes -/
def quoted (T : Texts N U) (r : Requirement N U) : List Char := '\'' :: T.requirement r ++ ['\'']

theorem quotes_inj (T : Texts N U) : ∀ {a b : List (Requirement N U)},
    (∀ r ∈ a, '\'' ∉ T.requirement r) → (∀ r ∈ b, '\'' ∉ T.requirement r) →
    joinWith " <- ".toList (a.map (quoted T)) = joinWith " <- ".toList (b.map (quoted T)) →
    a.map T.requirement = b.map T.requirement
  | [], [], _, _, _ => rfl
  | [], [y], _, _, h => by simp [joinWith, quoted] at h
  | [x], [], _, _, h => by simp [joinWith, quoted] at h
  | [], y :: z :: ys, _, _, h => by simp [joinWith, quoted] at h
  | x :: z :: xs, [], _, _, h => by simp [joinWith, quoted] at h
  | [x], [y], _, _, h => by
    simp only [List.map_cons, List.map_nil, joinWith, quoted, List.cons_append, List.cons.injEq, true_and] at h
    simp only [List.map_cons, List.map_nil, List.append_cancel_right h]
  | [x], y :: z :: ys, ha, hb, h => by
    simp only [List.map_cons, List.map_nil, joinWith, quoted, List.cons_append, List.cons.injEq, true_and,
      List.append_assoc, List.nil_append] at h
    have := (split_at (ha x (by simp)) (hb y (by simp)) h).2
    exact absurd this (by simp)
  | x :: z :: xs, [y], ha, hb, h => by
    simp only [List.map_cons, List.map_nil, joinWith, quoted, List.cons_append, List.cons.injEq, true_and,
      List.append_assoc, List.nil_append] at h
    have := (split_at (ha x (by simp)) (hb y (by simp)) h).2
    exact absurd this (by simp)
  | x :: z :: xs, y :: w :: ys, ha, hb, h => by
    have hj : ∀ (x z : Requirement N U) (xs : List (Requirement N U)), joinWith " <- ".toList ((x :: z :: xs).map (quoted T)) =
        '\'' :: (T.requirement x ++ '\'' :: (" <- ".toList ++ joinWith " <- ".toList ((z :: xs).map (quoted T)))) := by
      intro x z xs
      simp only [List.map_cons, joinWith, quoted, List.cons_append, List.append_assoc, List.nil_append]
    rw [hj, hj] at h
    obtain ⟨h1, h2⟩ := split_at (ha x (by simp)) (hb y (by simp)) (List.cons.inj h).2
    have h3 := quotes_inj T (a := z :: xs) (b := w :: ys) (fun v hv => ha v (by simp [hv])) (fun v hv => hb v (by simp [hv]))
      (List.append_cancel_left h2)
    simp only [List.map_cons] at h3 ⊢
    rw [h1, h3]

theorem quotes_eq (T : Texts N U) {a b : List (Requirement N U)} (h : a.map T.requirement = b.map T.requirement) :
    a.map (quoted T) = b.map (quoted T) := by
  have : ∀ l : List (Requirement N U), l.map (quoted T) = (l.map T.requirement).map (fun s => '\'' :: s ++ ['\'']) := by
    intro l; rw [List.map_map]; rfl
  rw [this, this, h]

theorem quotes_newline (T : Texts N U) : ∀ {a : List (Requirement N U)}, (∀ r ∈ a, '\n' ∉ T.requirement r) →
    '\n' ∉ joinWith " <- ".toList (a.map (quoted T))
  | [], _ => by simp [joinWith]
  | [x], h => by
    have := h x (by simp)
    simp [joinWith, quoted, this]
  | x :: y :: xs, h => by
    have h1 := h x (by simp)
    have h2 := quotes_newline T (a := y :: xs) (fun r hr => h r (by simp [hr]))
    rw [List.map_cons, List.map_cons, joinWith, ← List.map_cons]
    simp [quoted, h1]
    simpa [quoted] using h2

/-- A line can be read in one way only: of requirements whose texts contain neither quotes nor line feeds, and of packages
with ordinary names and versions, two lines agree exactly if the requirements have the same texts, and the same is said
about packages of the same names and versions. -/
theorem C88_unambiguous {T : Texts N U} {reqs reqs' : List (Requirement N U)} {f f' : Fact N S U}
    (hr : ∀ r ∈ reqs, '\'' ∉ T.requirement r ∧ '\n' ∉ T.requirement r)
    (hr' : ∀ r ∈ reqs', '\'' ∉ T.requirement r ∧ '\n' ∉ T.requirement r)
    (h : ∀ p ∈ f.packages, Ordinary T p) (h' : ∀ p ∈ f'.packages, Ordinary T p) :
    lineText T reqs f = lineText T reqs' f' ↔
      reqs.map T.requirement = reqs'.map T.requirement ∧ f.said T = f'.said T := by
  have hl : ∀ (reqs : List (Requirement N U)) (f : Fact N S U), lineText T reqs f =
      "Requirements: ".toList ++ (joinWith " <- ".toList (reqs.map (quoted T)) ++ '\n' :: ("    ".toList ++ f.text T)) := by
    intro reqs f
    unfold lineText
    rw [List.append_assoc, List.append_assoc]
    rfl
  rw [hl, hl, List.append_cancel_left_eq]
  constructor
  · intro e
    obtain ⟨e1, e2⟩ := split_at (quotes_newline T fun r k => (hr r k).2) (quotes_newline T fun r k => (hr' r k).2) e
    exact ⟨quotes_inj T (fun r k => (hr r k).1) (fun r k => (hr' r k).1) e1,
      (fact_inj h h').1 (List.append_cancel_left e2)⟩
  · rintro ⟨e1, e2⟩
    rw [quotes_eq T e1, (fact_inj h h').2 e2]

/-! ### The message of the exception: numbers only -/

/-- a block of the message -/
def numberBlock (b : List (List Int)) : List Char :=
  joinWith "\n".toList ("Conflicting requirements:".toList :: b.map intsToString) ++ "\n".toList

/-- The message of SatisfiabilityError is the text printed without a pool: one block per path, and one line per rule along
the path (of rules with the same literals, one), that lists the numbers of the packages. -/
theorem C88_message (hs : SolverFor rs s) {T : Texts N U} {o : Orders} {xo : XOrders} {q : Request N U}
    {x : Explanation N U} (h : s.solveExplained T o xo q = .error (.unsat x)) {text : List Char} {x' : Explanation N U}
    (ht : x.toText T (none : Option (Pool N S U)) = .ok (text, x')) :
    ∃ blocks : List (List (List Int)), text = joinWith "\n".toList (blocks.map numberBlock) ∧
      List.Forall₂ (fun chain b => (∀ r ∈ chain, ∃ ls ∈ b, ∀ l, l ∈ ls ↔ l ∈ r.literals) ∧
        ∀ ls ∈ b, ∃ r ∈ chain, ∀ l, l ∈ ls ↔ l ∈ r.literals) x.chains blocks := by
  obtain ⟨st, sv, u, h1, h2, h3⟩ := explanation_ok hs h
  obtain ⟨m', k1, -⟩ := h2.toText (pool := (none : Option (Pool N S U))) (T := T) h3
    (g := fun c => intsToString (x.evidence.lits c)) (fun c _ => rfl)
  rw [ht] at k1
  cases k1
  refine ⟨x.paths.map (fun p => (printed x.evidence p).map x.evidence.lits), ?_, ?_⟩
  · rw [List.map_map]
    congr 1
    apply List.map_congr_left
    intro p hp
    show _ = numberBlock _
    unfold block numberBlock
    rw [List.map_map]
    rfl
  · unfold Explanation.chains
    rw [List.forall₂_map_left_iff, List.forall₂_map_right_iff, List.forall₂_same]
    intro p hp
    constructor
    · intro r hr
      obtain ⟨c, hc, hcr⟩ := List.mem_filterMap.1 hr
      obtain ⟨d, hd1, hd2⟩ := printed_same (e := x.evidence) hc
      obtain ⟨-, -, -, r', k1, k2, k3, k4⟩ := h2.details d (h2.path_mem hp (mem_printed hd1))
      obtain ⟨-, -, -, r'', j1, j2, j3, j4⟩ := h2.details c (h2.path_mem hp hc)
      rw [hcr] at j1
      cases j1
      refine ⟨_, List.mem_map_of_mem hd1, fun l => ?_⟩
      rw [hd2, j4]
    · intro ls hls
      obtain ⟨c, hc, rfl⟩ := List.mem_map.1 hls
      obtain ⟨-, -, -, r, k1, k2, k3, k4⟩ := h2.details c (h2.path_mem hp (mem_printed hc))
      exact ⟨r, List.mem_filterMap.2 ⟨c, mem_printed hc, k1⟩, fun l => k4 l⟩

theorem int_chars {i : Int} {c : Char} (h : c ∈ (toString i).toList) : c ≠ ',' ∧ c ≠ ']' := by
  have hd : ∀ {n : Nat} {c : Char}, c ∈ (Nat.repr n).toList → c ≠ ',' ∧ c ≠ ']' := by
    intro n c hc
    rw [Nat.toList_repr] at hc
    have hd : c.isDigit = true := Nat.isDigit_of_mem_toDigits (by decide) (by decide) hc
    constructor <;> rintro rfl <;> exact absurd hd (by decide)
  cases i with
  | ofNat n => exact hd h
  | negSucc n =>
    have h : c ∈ ("-" ++ Nat.repr (n + 1)).toList := h
    rw [String.toList_append, List.mem_append] at h
    rcases h with h | h
    · have : c = '-' := by simpa using h
      subst this; decide
    · exact hd h

theorem int_inj {i j : Int} (h : (toString i).toList = (toString j).toList) : i = j :=
  Int.repr_inj.1 (String.toList_inj.1 h)

theorem int_ne (i : Int) : (toString i).toList ≠ [] := by
  intro h
  cases i with
  | ofNat n =>
    have h : (Nat.repr n).toList = [] := h
    rw [Nat.toList_repr] at h
    exact Nat.toDigits_ne_nil h
  | negSucc n =>
    have h : ("-" ++ Nat.repr (n + 1)).toList = [] := h
    rw [String.toList_append] at h
    simp at h

theorem ints_inj : ∀ {a b : List Int}, joinWith ", ".toList (a.map (fun l => (toString l).toList)) =
    joinWith ", ".toList (b.map (fun l => (toString l).toList)) → a = b
  | [], [], _ => rfl
  | [], [y], h => absurd h.symm (int_ne y)
  | [x], [], h => absurd h (int_ne x)
  | [], y :: z :: ys, h => by simp [joinWith] at h
  | x :: z :: xs, [], h => by simp [joinWith] at h
  | [x], [y], h => by rw [int_inj h]
  | [x], y :: z :: ys, h => by
    exfalso
    have h : (toString x).toList = (toString y).toList ++ ", ".toList ++ joinWith ", ".toList ((z :: ys).map (fun l => (toString l).toList)) := h
    have : ',' ∈ (toString x).toList := by rw [h]; simp
    exact (int_chars this).1 rfl
  | x :: z :: xs, [y], h => by
    exfalso
    have h : (toString x).toList ++ ", ".toList ++ joinWith ", ".toList ((z :: xs).map (fun l => (toString l).toList)) = (toString y).toList := h
    have : ',' ∈ (toString y).toList := by rw [← h]; simp
    exact (int_chars this).1 rfl
  | x :: z :: xs, y :: w :: ys, h => by
    have h : (toString x).toList ++ ", ".toList ++ joinWith ", ".toList ((z :: xs).map (fun l => (toString l).toList)) =
      (toString y).toList ++ ", ".toList ++ joinWith ", ".toList ((w :: ys).map (fun l => (toString l).toList)) := h
    rw [List.append_assoc, List.append_assoc] at h
    obtain ⟨h1, h2⟩ := split_at (c := ',') (fun k => (int_chars k).1 rfl) (fun k => (int_chars k).1 rfl) h
    have h3 := ints_inj (a := z :: xs) (b := w :: ys) (List.cons.inj h2).2
    rw [int_inj h1, h3]

/-- and the numbers can be read off the line -/
theorem C88_message_unambiguous {ls ls' : List Int} : intsToString ls = intsToString ls' ↔ ls = ls' := by
  constructor
  · intro h
    exact ints_inj (wrap_inj.1 h)
  · intro h; rw [h]

/-! ### Concrete cases -/

namespace RuleTextExample
open Verif.Pkg.Example Verif.Solve.Example SolveExample UnsatExample TransactionTextExample

abbrev words : Texts Nat Nat := TransactionTextExample.texts

def printedWith (s : DependencySolver Nat Str Nat) : Except (Failure Nat Nat) (Transaction Nat Str Nat) → Option (List Char)
  | .error (.unsat x) => match x.toText words (some s.pool) with
    | .ok (t, _) => some t
    | .error _ => none
  | _ => none

theorem printed1 : printedWith (solver [] remote1) ((solver [] remote1).solveExplained words insertionOrder setOrder jobs1) =
    some ("Conflicting requirements:\n".toList ++
      "Requirements: 'p1'\n    Install command rule (+p1-1-0)\n".toList ++
      "Requirements: 'p1' <- 'p3'\n    p1-1-0 requires (+p3-1-0)\n".toList ++
      "Requirements: 'p2' <- 'p3'\n    p3-1-0 conflicts with +p2-1-0\n".toList ++
      "Requirements: 'p2'\n    Install command rule (+p2-1-0)\n".toList) := by decide +kernel

/-- `C88_text` applies to it -/
example : ∃ text, printedWith (solver [] remote1) ((solver [] remote1).solveExplained words insertionOrder setOrder jobs1) =
      some text ∧ ∃ blocks : List (List (Rule Nat Nat × Fact Nat Str Nat)),
      text = joinWith "\n".toList (blocks.map (blockText words)) ∧
      ∀ b ∈ blocks, ∀ e ∈ b, e.2.Holds (allPackages (repos [] remote1)) (some jobs1.modifiers)
        (InstalledKeys (solver [] remote1)) (effectiveJobs (solver [] remote1) jobs1) e.1.requirements := by
  have h := printed1
  generalize hy : (solver [] remote1).solveExplained words insertionOrder setOrder jobs1 = y at h
  refine ⟨_, h, ?_⟩
  cases y with
  | ok t => cases h
  | error e =>
    cases e with
    | explaining e => cases h
    | other e => cases h
    | unsat x =>
      simp only [printedWith] at h
      split at h
      · next t x' ht =>
        cases h
        obtain ⟨blocks, h1, h2, -⟩ := C88_text for1 hy rfl ht
        exact ⟨blocks, h1, h2⟩
      · cases h

/-- `C88_message`: the message of the exception -/
def message : Except (Failure Nat Nat) (Transaction Nat Str Nat) → Option (List Char)
  | .error (.unsat x) => match x.toText words (none : Option (Pool Nat Str Nat)) with
    | .ok (t, _) => some t
    | .error _ => none
  | _ => none

example : message ((solver [] remote1).solveExplained words insertionOrder setOrder jobs1) =
    some (numberBlock [[1], [3, -1], [-3, -2], [2]]) := by decide +kernel

example : numberBlock [[1], [-1, 3]] = "Conflicting requirements:\n[1]\n[-1, 3]\n".toList := by decide +kernel

/-- the same package offered by two repositories is written once -/
example : Fact.text words (.install [pkg 0 1 1, pkg 1 1 1, pkg 0 1 2]) =
    "Install command rule (+p1-1-0 | +p1-2-0)".toList := by decide +kernel

/-- `C88_unambiguous` applies to all facts about these packages -/
example (f f' : Fact Nat Str Nat) (r r' : Requirement Nat Nat) :
    lineText words [r] f = lineText words [r'] f' ↔
      words.requirement r = words.requirement r' ∧ f.said words = f'.said words := by
  have hq : ∀ r : Requirement Nat Nat, '\'' ∉ words.requirement r ∧ '\n' ∉ words.requirement r := by
    intro r
    constructor
    · intro k
      rcases List.mem_cons.1 k with k | k
      · revert k; decide
      · exact (digits k).2.1 rfl
    · intro k
      rcases List.mem_cons.1 k with k | k
      · revert k; decide
      · exact (digits k).1 rfl
  have := C88_unambiguous (T := words) (reqs := [r]) (reqs' := [r']) (f := f) (f' := f')
    (by intro x _; exact hq x) (by intro x _; exact hq x) (fun p _ => ordinary p) (fun p _ => ordinary p)
  simpa using this

/-- Names with blanks are not ordinary, and can be misread: 1 is `a`, 2 is `b-1-0 conflicts with +c`, 3 is
`a-1-0 conflicts with +b`, and 4 is `c`. -/
def odd : Texts Nat Nat :=
  { words with
    name := fun n => if n = 1 then "a".toList else if n = 2 then "b-1-0 conflicts with +c".toList
      else if n = 3 then "a-1-0 conflicts with +b".toList else "c".toList }

example : Fact.text odd (.conflict (pkg 0 1 1) (pkg 0 2 1) : Fact Nat Str Nat) = Fact.text odd (.conflict (pkg 0 3 1) (pkg 0 4 1)) ∧
    Fact.said odd (.conflict (pkg 0 1 1) (pkg 0 2 1) : Fact Nat Str Nat) ≠ Fact.said odd (.conflict (pkg 0 3 1) (pkg 0 4 1)) := by
  decide +kernel

end RuleTextExample

end Verif.Props
