import Verif.Pkg.Equality
import Verif.Pkg.PackageSpec
import Verif.Pkg.PoolSpec
import Verif.Pkg.Example
import Verif.Text.Parser
/-
Property C97: `==` of the value objects of the library.
-/
set_option linter.unusedSectionVars false
namespace Verif.Props
open Verif Verif.Pkg Verif.Rules

variable {N S U : Type} [DecidableEq N] [DecidableEq S] [LinearOrder U]

/-! ### Specification -/

/-- objects of the same kind; requirements of all classes are of one kind, and so are packages with and without repository -/
inductive SameKind : Obj N S U → Obj N S U → Prop
  | constraint (c d : Constraint U) : SameKind (.constraint c) (.constraint d)
  | multi (cs ds : List (Constraint U)) : SameKind (.multi cs) (.multi ds)
  | requirement (r r' : Requirement N U) : SameKind (.requirement r) (.requirement r')
  | info (n m : N) : SameKind (.info n) (.info m)
  | package (p q : Package N S U) : SameKind (.package p) (.package q)
  | rule (r r' : Rule N U) : SameKind (.rule r) (.rule r')

/-- when objects are equal: for requirements the class does not count, for packages what they provide, for rules all but the
literals -/
inductive Alike : Obj N S U → Obj N S U → Prop
  | constraint (c : Constraint U) : Alike (.constraint c) (.constraint c)
  | multi (cs : List (Constraint U)) : Alike (.multi cs) (.multi cs)
  | requirement {r r' : Requirement N U} (h : r.name = r'.name) (h' : r.constraints = r'.constraints) :
    Alike (.requirement r) (.requirement r')
  | info (n : N) : Alike (.info n) (.info n)
  | package {p q : Package N S U} (h : SamePackage p q) : Alike (.package p) (.package q)
  | rule {r r' : Rule N U} (h : r.literals = r'.literals) : Alike (.rule r) (.rule r')

theorem cmpOf_yes {b : Bool} : Cmp.of b = .yes ↔ b = true := by cases b <;> decide
theorem cmpOf_no {b : Bool} : Cmp.of b = .no ↔ b = false := by cases b <;> decide
theorem cmpOf_cases (b : Bool) : Cmp.of b = .yes ∨ Cmp.of b = .no := by cases b <;> simp [Cmp.of]
theorem cmpOf_ne_unknown (b : Bool) : Cmp.of b ≠ .unknown := by cases b <;> decide

theorem eq_of_method {a b : Obj N S U} (h : a.eqMethod b ≠ .unknown) : a.eq b = a.eqMethod b := by
  unfold Obj.eq
  split
  · next e => exact absurd e h
  · rfl

/-! ### Proofs -/

/-- C97: objects are equal (`a == b` is True) exactly if they are alike. -/
theorem C97_equal_iff (a b : Obj N S U) : a.eq b = .yes ↔ Alike a b := by
  have key : ∀ x : Bool, ∀ P : Prop, (x = true ↔ P) → a.eqMethod b = .of x → (a.eq b = .yes ↔ P) := by
    intro x P h e
    rw [eq_of_method (by rw [e]; exact cmpOf_ne_unknown x), e, cmpOf_yes, h]
  cases a with
  | constraint c =>
    cases b with
    | constraint d =>
      refine key (decide (c = d)) _ ?_ rfl
      rw [decide_eq_true_eq]
      exact ⟨by rintro rfl; exact .constraint c, by rintro ⟨⟩; rfl⟩
    | _ => exact ⟨fun h => (by cases h), fun h => (by cases h)⟩
  | multi cs =>
    cases b with
    | multi ds =>
      refine key (decide (cs = ds)) _ ?_ rfl
      rw [decide_eq_true_eq]
      exact ⟨by rintro rfl; exact .multi cs, by rintro ⟨⟩; rfl⟩
    | _ => exact ⟨fun h => (by cases h), fun h => (by cases h)⟩
  | requirement r =>
    cases b with
    | requirement r' =>
      refine key (decide (r.name = r'.name ∧ r.constraints = r'.constraints)) _ ?_ ?_
      · rw [decide_eq_true_eq]
        exact ⟨fun h => .requirement h.1 h.2, by rintro (_ | _ | ⟨h, h'⟩); exact ⟨h, h'⟩⟩
      · by_cases h : r.name = r'.name
        · simp [Obj.eqMethod, Obj.nameOf, h]
        · simp [Obj.eqMethod, Obj.nameOf, h, Cmp.of]
    | info n =>
      refine ⟨fun h => ?_, fun h => (by cases h)⟩
      by_cases e : r.name = n <;> simp [Obj.eq, Obj.eqMethod, Obj.nameOf, e] at h
    | package p =>
      refine ⟨fun h => ?_, fun h => (by cases h)⟩
      by_cases e : r.name = p.name <;> simp [Obj.eq, Obj.eqMethod, Obj.nameOf, e] at h
    | _ => exact ⟨fun h => (by cases h), fun h => (by cases h)⟩
  | info n =>
    cases b with
    | info m =>
      refine key (decide (n = m)) _ ?_ rfl
      rw [decide_eq_true_eq]
      exact ⟨by rintro rfl; exact .info n, by rintro ⟨⟩; rfl⟩
    | _ => exact ⟨fun h => (by cases h), fun h => (by cases h)⟩
  | package p =>
    cases b with
    | package q =>
      refine key (p.same q) _ ?_ rfl
      unfold Package.same
      rw [decide_eq_true_eq, ← samePackage_iff]
      exact ⟨.package, by rintro (_ | _ | _ | _ | ⟨h⟩); exact h⟩
    | requirement r =>
      refine ⟨fun h => ?_, fun h => (by cases h)⟩
      by_cases e : r.name = p.name <;> simp [Obj.eq, Obj.eqMethod, Obj.nameOf, e] at h
    | _ => exact ⟨fun h => (by cases h), fun h => (by cases h)⟩
  | rule r =>
    cases b with
    | rule r' =>
      refine key (decide (r.literals = r'.literals)) _ ?_ rfl
      rw [decide_eq_true_eq]
      exact ⟨.rule, by rintro (_ | _ | _ | _ | _ | ⟨h⟩); exact h⟩
    | _ => exact ⟨fun h => (by cases h), fun h => (by cases h)⟩

/-- C97: being equal is an equivalence relation. -/
theorem C97_equivalence : Equivalence (fun a b : Obj N S U => a.eq b = .yes) := by
  refine ⟨?_, ?_, ?_⟩
  · intro a
    rw [C97_equal_iff]
    cases a with
    | constraint c => exact .constraint c
    | multi cs => exact .multi cs
    | requirement r => exact .requirement rfl rfl
    | info n => exact .info n
    | package p => exact .package ⟨rfl, rfl, rfl, rfl, rfl⟩
    | rule r => exact .rule rfl
  · intro a b h
    rw [C97_equal_iff] at *
    cases h with
    | constraint c => exact .constraint c
    | multi cs => exact .multi cs
    | requirement h h' => exact .requirement h.symm h'.symm
    | info n => exact .info n
    | package h => exact .package (samePackage_iff.2 (samePackage_iff.1 h).symm)
    | rule h => exact .rule h.symm
  · intro a b c h1 h2
    rw [C97_equal_iff] at *
    cases h1 with
    | constraint c => exact h2
    | multi cs => exact h2
    | requirement h h' => cases h2 with | requirement k k' => exact .requirement (h.trans k) (h'.trans k')
    | info n => exact h2
    | package h => cases h2 with | package k => exact .package (samePackage_iff.2 ((samePackage_iff.1 h).trans (samePackage_iff.1 k)))
    | rule h => cases h2 with | rule k => exact .rule (h.trans k)

/-- C97: equal objects have equal hashes, whatever the hash functions of strings, versions and tuples are: they can be keys of
dictionaries and elements of sets. -/
theorem C97_hash (h : Hashes N S U) {a b : Obj N S U} (he : a.eq b = .yes) : a.hash h = b.hash h := by
  rw [C97_equal_iff] at he
  cases he with
  | constraint c => rfl
  | multi cs => rfl
  | requirement h1 h2 => simp only [Obj.hash, h1, h2]
  | info n => rfl
  | package hp =>
    obtain ⟨h1, h2, h3, h4, h5⟩ := hp
    simp only [Obj.hash, Package.coreHash, h1, h2, h3, h4, h5]
  | rule hr => simp only [Obj.hash, hr]

theorem cmpOf_neg (b : Bool) : (Cmp.of b).neg = .of (!b) := by cases b <;> rfl

/-- C97: `a != b` is the opposite of `a == b`; the one raises AttributeError exactly if the other does. -/
theorem C97_not_equal (a b : Obj N S U) : a.ne b = (a.eq b).neg ∧ a.eq b ≠ .unknown := by
  have hd : ∀ x y : PKey N S U, decide (x ≠ y) = !decide (x = y) := fun x y => by simp
  have hn : ∀ x y : N, decide (x ≠ y) = !decide (x = y) := fun x y => by simp
  have key : ∀ {a b : Obj N S U} (x : Bool), a.eqMethod b = .of x → a.neMethod b = .of (!x) →
      a.ne b = (a.eq b).neg ∧ a.eq b ≠ .unknown := by
    intro a b x h1 h2
    have e1 := eq_of_method (a := a) (b := b) (by rw [h1]; exact cmpOf_ne_unknown x)
    rw [e1, h1, cmpOf_neg]
    refine ⟨?_, cmpOf_ne_unknown x⟩
    unfold Obj.ne
    rw [h2]
    cases x <;> rfl
  have key2 : ∀ {a b : Obj N S U}, a.eqMethod b ≠ .unknown → a.neMethod b = (a.eq b).neg →
      a.ne b = (a.eq b).neg ∧ a.eq b ≠ .unknown := by
    intro a b h1 h2
    have e1 := eq_of_method h1
    rw [e1] at h2 ⊢
    refine ⟨?_, h1⟩
    unfold Obj.ne
    rw [h2]
    cases he : a.eqMethod b <;> simp_all [Cmp.neg]
  have hr : ∀ (r : Requirement N U) (b : Obj N S U), (Obj.requirement r).eqMethod b ≠ .unknown := by
    intro r b
    cases b with
    | requirement r' =>
      by_cases h : r.name = r'.name
      · simp only [Obj.eqMethod, Obj.nameOf, h, if_true]
        exact cmpOf_ne_unknown _
      · simp [Obj.eqMethod, Obj.nameOf, h]
    | info n => by_cases h : r.name = n <;> simp [Obj.eqMethod, Obj.nameOf, h]
    | package p => by_cases h : r.name = p.name <;> simp [Obj.eqMethod, Obj.nameOf, h]
    | _ => intro h; cases h
  cases a with
  | constraint c =>
    refine key2 ?_ rfl
    cases b <;> first | exact cmpOf_ne_unknown _ | (intro h; cases h)
  | multi cs =>
    refine key2 ?_ rfl
    cases b <;> first | exact cmpOf_ne_unknown _ | (intro h; cases h)
  | rule r =>
    refine key2 ?_ rfl
    cases b <;> first | exact cmpOf_ne_unknown _ | (intro h; cases h)
  | requirement r => exact key2 (hr r b) rfl
  | info n =>
    cases b with
    | info m => exact key (decide (n = m)) rfl (congrArg Cmp.of (hn n m))
    | package p => exact key false rfl rfl
    | _ => exact ⟨rfl, fun h => (by cases h)⟩
  | package p =>
    cases b with
    | package q => exact key (p.same q) rfl (congrArg Cmp.of (hd p.key q.key))
    | info m => exact key false rfl rfl
    | requirement r =>
      have e : (Obj.package p).eq (.requirement r) = (Obj.requirement r).eqMethod (.package p) := rfl
      have e1 : (Obj.package p).ne (.requirement r) = ((Obj.requirement r).eq (.package p)).neg := rfl
      rw [e, e1, eq_of_method (hr r _)]
      exact ⟨rfl, hr r _⟩
    | _ => exact ⟨rfl, fun h => (by cases h)⟩

/-- C97, what holds: comparisons between objects of the same kind never raise an exception. (Missing: that no
comparison ever raises; it is false, see `C97_violated_raises`.) -/
theorem C97_same_kind_partial {a b : Obj N S U} (h : SameKind a b) : a.eq b = .yes ∨ a.eq b = .no := by
  have key : ∀ x : Bool, a.eqMethod b = .of x → (a.eq b = .yes ∨ a.eq b = .no) := by
    intro x e
    rw [eq_of_method (by rw [e]; exact cmpOf_ne_unknown x), e]
    exact cmpOf_cases x
  cases h with
  | constraint c d => exact key _ rfl
  | multi c d => exact key _ rfl
  | requirement r r' =>
    by_cases h : r.name = r'.name
    · exact key (decide (r.constraints = r'.constraints)) (by simp [Obj.eqMethod, Obj.nameOf, h])
    · exact key false (by simp [Obj.eqMethod, Obj.nameOf, h, Cmp.of])
  | info n m => exact key _ rfl
  | package p q => exact key _ rfl
  | rule r r' => exact key _ rfl

/-- C97: a package or a repository info of the same name as a requirement cannot be compared with it, in either order, without
AttributeError. -/
theorem C97_violated_raises (r : Requirement N U) (p : Package N S U) (h : r.name = p.name) :
    (Obj.requirement r).eq (.package p) = .attributeError ∧ (Obj.package p).eq (.requirement r) = .attributeError ∧
    (Obj.requirement r : Obj N S U).eq (.info r.name) = .attributeError := by
  refine ⟨?_, ?_, ?_⟩ <;> simp [Obj.eq, Obj.eqMethod, Obj.nameOf, h]

/-- C97 (the code violates it): whether a comparison raises depends on the order of its sides: a repository info compared with a
requirement of another name raises AttributeError, the requirement compared with the info gives False. -/
theorem C97_violated_order (r : Requirement N U) (n : N) (h : r.name ≠ n) :
    (Obj.info n : Obj N S U).eq (.requirement r) = .attributeError ∧ (Obj.requirement r : Obj N S U).eq (.info n) = .no := by
  constructor <;> simp [Obj.eq, Obj.eqMethod, Obj.nameOf, h]

/-! ### Equal objects behave the same -/

/-- C97: equal constraints and requirements match the same versions. -/
theorem C97_matches :
    (∀ c d : Constraint U, (Obj.constraint c : Obj N S U).eq (.constraint d) = .yes → ∀ v, c.matches v = d.matches v) ∧
    (∀ r r' : Requirement N U, (Obj.requirement r : Obj N S U).eq (.requirement r') = .yes →
      r.name = r'.name ∧ ∀ v, r.matches v = r'.matches v) := by
  constructor
  · intro c d h v
    rw [C97_equal_iff] at h
    cases h
    rfl
  · intro r r' h
    rw [C97_equal_iff] at h
    cases h with
    | requirement h1 h2 => exact ⟨h1, fun v => by unfold Requirement.matches; rw [h2]⟩

/-- C97: equal packages have the same name, version, dependencies, conflicts and repository. -/
theorem C97_package_fields {p q : Package N S U} (h : (Obj.package p).eq (.package q) = .yes) :
    p.name = q.name ∧ p.version = q.version ∧ p.installRequires = q.installRequires ∧ p.conflicts = q.conflicts ∧
      p.repo = q.repo := by
  rw [C97_equal_iff] at h
  cases h with
  | package h => exact h

/-- C97: equal requirements are printed alike. -/
theorem C97_text {U : Type} [LinearOrder U] [Text.CharTable] [Text.VersionText U] (r r' : Requirement Text.Str U)
    (h : (Obj.requirement r : Obj Text.Str S U).eq (.requirement r') = .yes) :
    Text.requirementStr r = Text.requirementStr r' := by
  rw [C97_equal_iff] at h
  cases h with
  | requirement h1 h2 =>
    obtain ⟨c, n, cs⟩ := r
    obtain ⟨c', n', cs'⟩ := r'
    cases h1
    cases h2
    rfl

/-- C97 (the code violates it): equal packages may provide different names. Here two packages are equal, but only one of them
meets a requirement of the name 7. -/
theorem C97_violated_provides : ∃ p q : Package Nat Example.Str Nat, (Obj.package p).eq (.package q) = .yes ∧
    Provides p 7 ∧ ¬ Provides q 7 := by
  refine ⟨Example.pkg 1 2 3 [] [] [Example.dep 7], Example.pkg 1 2 3, by decide, ?_, ?_⟩
  · simp [Provides, Example.pkg, Example.dep]
  · simp [Provides, Example.pkg]

/-- C97 (the code violates it): equal requirements may give different results: whether modifiers relax it, leave it or raise
NotImplementedError depends on the class, which is not compared. -/
theorem C97_violated_class : ∃ (r r' : Requirement Nat Nat) (m : Modifiers Nat),
    (Obj.requirement r : Obj Nat Example.Str Nat).eq (.requirement r') = .yes ∧
    (∃ x, modifyRequirement r m = .ok x) ∧ modifyRequirement r' m = .error .notImplemented :=
  ⟨⟨.install, 1, [.equal (Example.v 2)]⟩, ⟨.conflict, 1, [.equal (Example.v 2)]⟩, ⟨[1], [], []⟩, by decide, ⟨_, rfl⟩, by decide⟩

/-- the hypotheses can be met: equal objects that are not the same -/
example : (Obj.requirement ⟨.install, 1, [.equal (Example.v 2)]⟩ : Obj Nat Example.Str Nat).eq
      (.requirement ⟨.plain, 1, [.equal (Example.v 2)]⟩) = .yes ∧
    (Obj.rule ⟨[-1, 2], .packageRequires, []⟩ : Obj Nat Example.Str Nat).eq (.rule ⟨[-1, 2], .jobInstall, []⟩) = .yes ∧
    (Obj.package (Example.pkg 1 2 3)).eq (.package (Example.pkg 1 2 4)) = .no ∧
    (Obj.package (Example.pkg 1 2 3)).eq (.info 2) = .no ∧
    (Obj.package (Example.pkg 1 2 3)).eq (.constraint (.geq (Example.v 1))) = .no := by decide

end Verif.Props
