import Verif.Text.Composer
import Verif.Props.PackageText
import Verif.Props.Definition
import Verif.Solve.DimacsLemmas
/-
C108-C111: the export for Composer.
-/
set_option linter.unusedSectionVars false
namespace Verif.Props
open Verif Verif.Pkg Verif.Text VersionText

/-! ### Specification -/

/-- ".0" several times -/
def zeros (k : Nat) : Str := (List.replicate k ['.', '0']).flatten

/-- the upstream versions that are written in another way -/
def versionTable : List (String × String) :=
  [("1.0a3", "1.0.0"), ("1.0b1", "1.0.0"), ("2010o", "2010.15.0.0"), ("2011n", "2011.14.0.0"), ("2011g", "2011.7.0.0"),
   ("0.14.1rc1", "0.14.1.0"), ("0.11rc1", "0.11.0.0"), ("0.9.0rc2", "0.9.0"), ("2.3b1.dev4669", "2.3.0"), ("1.2.dev213", "1.2.0"),
   ("0.4.2.dev2", "0.4.2")]

/-- the text `a` is in the table, with `b` -/
def InTable (a b : Str) : Prop := (String.ofList a, String.ofList b) ∈ versionTable

/-- `b` is the text that is used for an upstream version whose text is `a`: another one for the few in the table -/
def Renamed (a b : Str) : Prop := InTable a b ∨ (∀ x, ¬ InTable a x) ∧ a = b

section
variable {U : Type} [LinearOrder U] [VersionText U]

/-- the text of an upstream version, with zeros added until it has four parts -/
def UpstreamText (u : U) (t : Str) : Prop :=
  ∃ b k, Renamed (upstreamStr u) b ∧ t = b ++ zeros k ∧ (t.count '.' = 3 ∨ k = 0 ∧ 3 < t.count '.')

/-- the text of the version of a package -/
def NormalText (v : Version U) (t : Str) : Prop :=
  ∃ u, UpstreamText v.upstream u ∧ t = u ++ ("-patch".toList ++ Nat.toDigits 10 v.build)

/-- the text of the version of a constraint -/
inductive BoundText : Version U → Str → Prop where
  | first {v : Version U} {u} : v.build = 0 → UpstreamText v.upstream u → BoundText v u
  | later {v : Version U} {t} : v.build ≠ 0 → NormalText v t → BoundText v t

/-- the text of a constraint of a package -/
inductive RequireText : Constraint U → Str → Prop where
  | any : RequireText .any ['*']
  | equal {v t} : BoundText v t → RequireText (.equal v) t
  | upstream {v t} : BoundText v t → RequireText (.upstream v) ('~' :: t)

/-- the text of a constraint of a request -/
inductive RequestText : Constraint U → Str → Prop where
  | any : RequestText .any "*".toList
  | geq {v t} : BoundText v t → RequestText (.geq v) (">= ".toList ++ t)
  | gt {v t} : BoundText v t → RequestText (.gt v) ("> ".toList ++ t)
  | leq {v t} : BoundText v t → RequestText (.leq v) ("<= ".toList ++ t)
  | lt {v t} : BoundText v t → RequestText (.lt v) ("< ".toList ++ t)

/-- the constraints that packages may have -/
def Requirable (c : Constraint U) : Prop := c = .any ∨ (∃ v, c = .equal v) ∨ ∃ v, c = .upstream v

/-- the constraints that requests may have -/
def Requestable (c : Constraint U) : Prop :=
  c = .any ∨ (∃ v, c = .geq v) ∨ (∃ v, c = .gt v) ∨ (∃ v, c = .leq v) ∨ ∃ v, c = .lt v

/-- the text of a requirement of a package: its constraints, with commas between them -/
def RequirementText (r : Requirement Str U) (t : Str) : Prop :=
  ∃ ts, List.Forall₂ RequireText r.constraints ts ∧ t = joinComma ts

/-- the entry of a package -/
structure Exports (p : Package Str (CStr U) U) (e : PhpEntry) : Prop where
  name : e.name = p.name
  version : e.version = toStr p.version
  normalized : NormalText p.version e.versionNormalized
  nodup : (dkeys e.require).Nodup
  require : ∃ reqs, List.Forall₂ (fun t r => fromConstraints .install t = .ok r) p.installRequires reqs ∧
    ∀ n, (n ∈ dkeys e.require ↔ ∃ r ∈ reqs, r.name = n) ∧ ∀ text, dget e.require n = some text →
      ∃ ts, List.Forall₂ RequirementText (reqs.filter (fun r => decide (r.name = n))) ts ∧ text = joinComma ts

/-- the packages that have an entry: their requirements can be read, and are of the three kinds -/
def Exportable (p : Package Str (CStr U) U) : Prop :=
  ∀ t ∈ p.installRequires, ∃ r : Requirement Str U, fromConstraints .install t = .ok r ∧ ∀ c ∈ r.constraints, Requirable c

/-- the part of a job: the word for it, the name and the constraints -/
def SendsJob (j : Job Str U) (part : Str × Str × Str) : Prop :=
  ∃ r ts, j.requirement = some r ∧ List.Forall₂ RequestText r.constraints ts ∧
    (j.kind = .install ∧ part.1 = "install".toList ∨ j.kind = .remove ∧ part.1 = "remove".toList) ∧
    part.2.1 = r.name ∧ part.2.2 = joinComma ts

/-! ### Version texts -/

theorem zeros_zero : zeros 0 = [] := rfl
theorem zeros_succ (k : Nat) : zeros (k + 1) = '.' :: '0' :: zeros k := rfl

theorem zeros_count (k : Nat) : (zeros k).count '.' = k := by
  induction k with
  | zero => rfl
  | succ k ih =>
    rw [zeros_succ, List.count_cons_self, List.count_cons_of_ne (by decide), ih]

theorem zeros_no_dash (k : Nat) : '-' ∉ zeros k := by
  induction k with
  | zero => simp [zeros]
  | succ k ih => rw [zeros_succ]; simp [ih]

theorem zeros_add (j k : Nat) : zeros (j + k) = zeros j ++ zeros k := by
  unfold zeros
  rw [List.replicate_add, List.flatten_append]

theorem padDots_eq : ∀ (n : Nat) (s : Str), 3 ≤ s.count '.' + n → padDots n s = s ++ zeros (3 - s.count '.')
  | 0, s, h => by
    have : 3 - s.count '.' = 0 := by omega
    rw [this, zeros_zero, List.append_nil]; rfl
  | n + 1, s, h => by
    unfold padDots
    have hc : (s ++ ['.', '0']).count '.' = s.count '.' + 1 := by simp [List.count_append]
    split
    · next h' =>
      rw [padDots_eq n _ (by rw [hc]; omega), hc, List.append_assoc]
      have : 3 - s.count '.' = (3 - (s.count '.' + 1)) + 1 := by omega
      rw [this, zeros_succ]
      rfl
    · have : 3 - s.count '.' = 0 := by omega
      rw [this, zeros_zero, List.append_nil]

theorem inTable_iff (a b : Str) : InTable a b ↔ (a, b) ∈ toNormalize := by
  have e : toNormalize = versionTable.map (fun p => (p.1.toList, p.2.toList)) := rfl
  unfold InTable
  rw [e, List.mem_map]
  constructor
  · intro h
    exact ⟨_, h, by simp⟩
  · rintro ⟨⟨x, y⟩, h, h2⟩
    simp only [Prod.mk.injEq] at h2
    obtain ⟨rfl, rfl⟩ := h2
    simpa using h

theorem renamed_iff (a b : Str) : Renamed a b ↔ b = (dget toNormalize a).getD a := by
  have hn : (dkeys toNormalize).Nodup := by decide
  unfold Renamed
  simp only [inTable_iff]
  cases h : dget toNormalize a with
  | none =>
    have hno : ∀ x, (a, x) ∉ toNormalize := fun x hx => by
      rw [dget_of_mem hn hx] at h
      cases h
    constructor
    · rintro (h1 | ⟨-, rfl⟩)
      · exact absurd h1 (hno b)
      · rfl
    · intro e
      exact Or.inr ⟨hno, e.symm⟩
  | some x =>
    have hx := mem_of_dget h
    constructor
    · rintro (h1 | ⟨h1, -⟩)
      · rw [dget_of_mem hn h1] at h
        exact Option.some.inj h
      · exact absurd hx (h1 x)
    · intro e
      exact Or.inl (e ▸ hx)

theorem upstreamText_iff (v : Version U) (t : Str) : UpstreamText v.upstream t ↔ t = phpUpstream v := by
  unfold UpstreamText phpUpstream
  simp only [renamed_iff]
  rw [padDots_eq 3 _ (by omega)]
  set b := (dget toNormalize (upstreamStr v.upstream)).getD (upstreamStr v.upstream) with hb
  constructor
  · rintro ⟨b', k, rfl, rfl, h⟩
    rw [List.count_append, zeros_count] at h
    have : k = 3 - b.count '.' := by omega
    rw [this]
  · rintro rfl
    refine ⟨b, _, rfl, rfl, ?_⟩
    rw [List.count_append, zeros_count]
    omega

theorem normalText_iff (v : Version U) (t : Str) : NormalText v t ↔ t = normalizePhpVersion v := by
  unfold NormalText normalizePhpVersion patchText
  simp only [upstreamText_iff, exists_eq_left]

theorem boundText_iff (v : Version U) (t : Str) : BoundText v t ↔ t = normalizePhpConstraint v := by
  unfold normalizePhpConstraint
  constructor
  · intro h
    cases h with
    | first h1 h2 => rw [if_pos h1]; exact (upstreamText_iff v t).1 h2
    | later h1 h2 => rw [if_neg h1]; exact (normalText_iff v t).1 h2
  · intro h
    by_cases h0 : v.build = 0
    · rw [if_pos h0] at h
      exact .first h0 ((upstreamText_iff v t).2 h)
    · rw [if_neg h0] at h
      exact .later h0 ((normalText_iff v t).2 h)

/-! ### Constraint texts -/

theorem requirePart_iff (c : Constraint U) (t : Str) : requirePart c = .ok t ↔ RequireText c t := by
  constructor
  · intro h
    cases c with
    | any => cases h; exact .any
    | equal v => cases h; exact .equal ((boundText_iff v _).2 rfl)
    | upstream v => cases h; exact .upstream ((boundText_iff v _).2 rfl)
    | _ => cases h
  · intro h
    cases h with
    | any => rfl
    | equal h => rw [(boundText_iff _ _).1 h]; rfl
    | upstream h => rw [(boundText_iff _ _).1 h]; rfl

theorem requirePart_error (c : Constraint U) (e : ExportErr) : requirePart c = .error e ↔ e = .notImplemented ∧ ¬ Requirable c := by
  unfold Requirable
  cases c <;> simp [requirePart, eq_comm]

theorem requestPart_iff (c : Constraint U) (t : Str) : requestPart c = .ok t ↔ RequestText c t := by
  constructor
  · intro h
    cases c with
    | any => cases h; exact .any
    | geq v => cases h; exact .geq ((boundText_iff v _).2 rfl)
    | gt v => cases h; exact .gt ((boundText_iff v _).2 rfl)
    | leq v => cases h; exact .leq ((boundText_iff v _).2 rfl)
    | lt v => cases h; exact .lt ((boundText_iff v _).2 rfl)
    | _ => cases h
  · intro h
    cases h with
    | any => rfl
    | geq h => rw [(boundText_iff _ _).1 h]; rfl
    | gt h => rw [(boundText_iff _ _).1 h]; rfl
    | leq h => rw [(boundText_iff _ _).1 h]; rfl
    | lt h => rw [(boundText_iff _ _).1 h]; rfl

theorem requestPart_error (c : Constraint U) (e : ExportErr) : requestPart c = .error e ↔ e = .valueError ∧ ¬ Requestable c := by
  unfold Requestable
  cases c <;> simp [requestPart, eq_comm]

theorem forall₂_iff {α β : Type} {R S : α → β → Prop} (h : ∀ a b, R a b ↔ S a b) {l : List α} {m : List β} :
    List.Forall₂ R l m ↔ List.Forall₂ S l m :=
  ⟨fun k => k.imp (fun a b => (h a b).1), fun k => k.imp (fun a b => (h a b).2)⟩

theorem mapE_error_iff {α β ε : Type} (f : α → Except ε β) (e : ε) : ∀ l : List α, mapE f l = .error e ↔
    ∃ a x b ys, l = a ++ x :: b ∧ List.Forall₂ (fun x y => f x = .ok y) a ys ∧ f x = .error e
  | [] => by simp [mapE]
  | z :: l => by
    simp only [mapE]
    cases hz : f z with
    | error e' =>
      simp only
      constructor
      · intro h
        cases h
        exact ⟨[], z, l, [], rfl, .nil, hz⟩
      · rintro ⟨a, x, b, ys, h1, h2, h3⟩
        cases a with
        | nil =>
          simp only [List.nil_append, List.cons.injEq] at h1
          obtain ⟨rfl, rfl⟩ := h1
          rw [hz] at h3
          cases h3
          rfl
        | cons a0 a =>
          simp only [List.cons_append, List.cons.injEq] at h1
          obtain ⟨rfl, rfl⟩ := h1
          cases h2 with
          | cons h4 _ => rw [hz] at h4; cases h4
    | ok y =>
      simp only
      have ih := mapE_error_iff f e l
      constructor
      · intro h
        cases hl : mapE f l with
        | ok ys => rw [hl] at h; cases h
        | error e' =>
          rw [hl] at h
          cases h
          obtain ⟨a, x, b, ys, h1, h2, h3⟩ := ih.1 hl
          exact ⟨z :: a, x, b, y :: ys, by rw [h1]; rfl, .cons hz h2, h3⟩
      · rintro ⟨a, x, b, ys, h1, h2, h3⟩
        cases a with
        | nil =>
          simp only [List.nil_append, List.cons.injEq] at h1
          obtain ⟨rfl, rfl⟩ := h1
          rw [hz] at h3
          cases h3
        | cons a0 a =>
          simp only [List.cons_append, List.cons.injEq] at h1
          obtain ⟨rfl, rfl⟩ := h1
          cases h2 with
          | cons _ h4 => rw [ih.2 ⟨a, x, b, _, rfl, h4, h3⟩]

theorem requirementString_iff (r : Requirement Str U) (t : Str) : requirementToPhpString r = .ok t ↔ RequirementText r t := by
  unfold requirementToPhpString RequirementText
  simp only [← forall₂_iff (requirePart_iff (U := U)), ← mapE_ok_iff]
  cases mapE requirePart r.constraints with
  | error e => simp
  | ok parts => simp [eq_comm]

theorem requirementString_error (r : Requirement Str U) (e : ExportErr) : requirementToPhpString r = .error e ↔
    e = .notImplemented ∧ ∃ c ∈ r.constraints, ¬ Requirable c := by
  unfold requirementToPhpString
  cases h : mapE requirePart r.constraints with
  | ok parts =>
    simp only [reduceCtorEq, false_iff, not_and, not_exists]
    intro _ c hc hn
    obtain ⟨t, -, ht⟩ := mapE_all h hc
    rw [(requirePart_error c .notImplemented).2 ⟨rfl, hn⟩] at ht
    cases ht
  | error e' =>
    obtain ⟨c, hc, h'⟩ := mapE_error h
    rw [requirePart_error] at h'
    simp only [Except.error.injEq]
    constructor
    · rintro rfl
      exact ⟨h'.1, c, hc, h'.2⟩
    · rintro ⟨rfl, -⟩
      exact h'.1

/-! ### The dictionary -/

theorem phpLists_ok : ∀ (rs : List (Requirement Str U)) (d d' : Dict Str (List Str)), phpLists rs d = .ok d' →
    (∀ n, dget d' n = if ∃ r ∈ rs, r.name = n then
      some ((dget d n).getD [] ++ (rs.filter (fun r => decide (r.name = n))).filterMap (fun r => (requirementToPhpString r).toOption))
      else dget d n) ∧ (∀ r ∈ rs, ∃ t, requirementToPhpString r = .ok t) ∧ ((dkeys d).Nodup → (dkeys d').Nodup)
  | [], d, d', h => by
    simp only [phpLists, Except.ok.injEq] at h
    subst h
    simp
  | r :: rs, d, d', h => by
    unfold phpLists at h
    cases ht : requirementToPhpString r with
    | error e => simp only [ht] at h; cases h
    | ok t =>
      simp only [ht] at h
      obtain ⟨h1, h2, h3⟩ := phpLists_ok rs _ d' h
      refine ⟨?_, ?_, fun hn => h3 (nodup_dkeys_dset hn _ _)⟩
      · intro n
        rw [h1 n, dget_dset]
        by_cases hn : r.name = n
        · subst hn
          simp only [if_true, List.mem_cons, exists_eq_or_imp, true_or, Option.getD_some, decide_true, List.filter_cons_of_pos]
          rw [List.filterMap_cons_some (by rw [ht]; rfl)]
          by_cases hex : ∃ r' ∈ rs, r'.name = r.name
          · rw [if_pos hex]; simp
          · rw [if_neg hex]
            have : rs.filter (fun r' => decide (r'.name = r.name)) = [] := by
              rw [List.filter_eq_nil_iff]
              intro x hx hxn
              exact hex ⟨x, hx, by simpa using hxn⟩
            rw [this]
            rfl
        · simp [hn]
      · intro x hx
        rcases List.mem_cons.1 hx with rfl | hx
        · exact ⟨t, ht⟩
        · exact h2 x hx

theorem phpLists_error : ∀ (rs : List (Requirement Str U)) (d : Dict Str (List Str)) (e : ExportErr), phpLists rs d = .error e →
    ∃ r ∈ rs, requirementToPhpString r = .error e
  | [], d, e, h => by simp [phpLists] at h
  | r :: rs, d, e, h => by
    unfold phpLists at h
    cases ht : requirementToPhpString r with
    | error e' =>
      simp only [ht] at h
      cases h
      exact ⟨r, by simp, ht⟩
    | ok t =>
      simp only [ht] at h
      obtain ⟨x, hx, hx'⟩ := phpLists_error rs _ e h
      exact ⟨x, by simp [hx], hx'⟩

theorem filterMap_texts : ∀ (rs : List (Requirement Str U)), (∀ r ∈ rs, ∃ t, requirementToPhpString r = .ok t) →
    List.Forall₂ RequirementText rs (rs.filterMap (fun r => (requirementToPhpString r).toOption))
  | [], _ => .nil
  | r :: rs, h => by
    obtain ⟨t, ht⟩ := h r (by simp)
    rw [List.filterMap_cons_some (by rw [ht]; rfl)]
    exact .cons ((requirementString_iff r t).1 ht) (filterMap_texts rs (fun x hx => h x (by simp [hx])))

theorem requireText_unique {c : Constraint U} {t t' : Str} (h : RequireText c t) (h' : RequireText c t') : t = t' := by
  rw [← requirePart_iff] at h h'
  rw [h] at h'
  exact Except.ok.inj h'

theorem requirementText_unique {r : Requirement Str U} {t t' : Str} (h : RequirementText r t) (h' : RequirementText r t') : t = t' := by
  rw [← requirementString_iff] at h h'
  rw [h] at h'
  exact Except.ok.inj h'

theorem forall₂_unique {α β : Type} {R : α → β → Prop} (hu : ∀ a b b', R a b → R a b' → b = b') : ∀ {l : List α} {m m' : List β},
    List.Forall₂ R l m → List.Forall₂ R l m' → m = m' := by
  intro l m m' h
  induction h generalizing m' with
  | nil => intro h'; cases h'; rfl
  | cons h1 _ ih =>
    intro h'
    cases h' with
    | cons h2 h3 => rw [hu _ _ _ h1 h2, ih h3]

theorem dget_map {κ α β : Type} [DecidableEq κ] (f : α → β) (d : Dict κ α) (k : κ) :
    dget (d.map (fun kv => (kv.1, f kv.2))) k = (dget d k).map f := by
  induction d with
  | nil => rfl
  | cons kv t ih =>
    simp only [List.map_cons, dget, ih]
    split <;> rfl

theorem dkeys_map {κ α β : Type} (f : α → β) (d : Dict κ α) : dkeys (d.map (fun kv => (kv.1, f kv.2))) = dkeys d := by
  unfold dkeys
  rw [List.map_map]
  rfl

theorem requirementsDict_ok {rs : List (Requirement Str U)} {d : Dict Str Str} (h : requirementsToPhpDict rs = .ok d) :
    (dkeys d).Nodup ∧ ∀ n, (n ∈ dkeys d ↔ ∃ r ∈ rs, r.name = n) ∧ ∀ text, dget d n = some text →
      ∃ ts, List.Forall₂ RequirementText (rs.filter (fun r => decide (r.name = n))) ts ∧ text = joinComma ts := by
  unfold requirementsToPhpDict at h
  cases hl : phpLists rs [] with
  | error e => rw [hl] at h; cases h
  | ok l =>
    rw [hl] at h
    cases h
    obtain ⟨h1, h2, h3⟩ := phpLists_ok rs _ _ hl
    refine ⟨by rw [dkeys_map]; exact h3 (by simp [dkeys]), ?_⟩
    intro n
    rw [mem_dkeys_iff, dget_map, h1 n]
    have hf := filterMap_texts (rs.filter (fun r => decide (r.name = n))) (fun r hr => h2 r (List.mem_filter.1 hr).1)
    by_cases hex : ∃ r ∈ rs, r.name = n
    · rw [if_pos hex]
      refine ⟨by simp [hex], ?_⟩
      rintro text e
      simp only [dget, Option.getD_none, List.nil_append, Option.map_some, Option.some.injEq] at e
      exact ⟨_, hf, e.symm⟩
    · rw [if_neg hex]
      simp [dget, hex]

theorem requirementsDict_error {rs : List (Requirement Str U)} {e : ExportErr} (h : requirementsToPhpDict rs = .error e) :
    e = .notImplemented ∧ ∃ r ∈ rs, ∃ c ∈ r.constraints, ¬ Requirable c := by
  unfold requirementsToPhpDict at h
  cases hl : phpLists rs [] with
  | ok l => rw [hl] at h; cases h
  | error e' =>
    rw [hl] at h
    cases h
    obtain ⟨r, hr, h'⟩ := phpLists_error rs _ _ hl
    rw [requirementString_error] at h'
    exact ⟨h'.1, r, hr, h'.2⟩

theorem liftPkg_ok {α : Type} (x : Except PErr α) (y : α) : liftPkg x = .ok y ↔ x = .ok y := by
  cases x <;> simp [liftPkg]

theorem liftPkg_error {α : Type} (x : Except PErr α) (e : ExportErr) : liftPkg x = .error e ↔ ∃ e', x = .error e' ∧ e = .pkg e' := by
  cases x <;> simp [liftPkg, eq_comm]

/-! ### Entries -/

theorem entry_ok {p : Package Str (CStr U) U} {x : PhpEntry} (h : phpEntry p = .ok x) : Exports p x := by
  unfold phpEntry at h
  cases hm : mapE (fun t => liftPkg (fromConstraints (U := U) .install t)) p.installRequires with
  | error e => rw [hm] at h; cases h
  | ok reqs =>
    rw [hm] at h
    simp only at h
    cases hd : requirementsToPhpDict reqs with
    | error e => rw [hd] at h; cases h
    | ok d =>
      rw [hd] at h
      cases h
      obtain ⟨h1, h2⟩ := requirementsDict_ok hd
      rw [mapE_ok_iff] at hm
      refine ⟨rfl, rfl, (normalText_iff _ _).2 rfl, h1, reqs, hm.imp (fun a b hab => (liftPkg_ok _ _).1 hab), h2⟩

/-- why a package has no entry -/
def Fails (p : Package Str (CStr U) U) (e : ExportErr) : Prop :=
  (∃ t ∈ p.installRequires, ∃ e', fromConstraints (U := U) .install t = .error e' ∧ e = .pkg e') ∨
  e = .notImplemented ∧ (∀ t ∈ p.installRequires, ∃ r, fromConstraints (U := U) .install t = .ok r) ∧
    ∃ t ∈ p.installRequires, ∃ r : Requirement Str U, fromConstraints .install t = .ok r ∧ ∃ c ∈ r.constraints, ¬ Requirable c

theorem forall₂_left {α β : Type} {R : α → β → Prop} {l : List α} {m : List β} (h : List.Forall₂ R l m) {x : α} (hx : x ∈ l) :
    ∃ y ∈ m, R x y := by
  induction h with
  | nil => simp at hx
  | cons h1 _ ih =>
    rcases List.mem_cons.1 hx with rfl | hx
    · exact ⟨_, by simp, h1⟩
    · obtain ⟨y, hy, h'⟩ := ih hx
      exact ⟨y, by simp [hy], h'⟩

theorem forall₂_right {α β : Type} {R : α → β → Prop} {l : List α} {m : List β} (h : List.Forall₂ R l m) {y : β} (hy : y ∈ m) :
    ∃ x ∈ l, R x y := by
  induction h with
  | nil => simp at hy
  | cons h1 _ ih =>
    rcases List.mem_cons.1 hy with rfl | hy
    · exact ⟨_, by simp, h1⟩
    · obtain ⟨x, hx, h'⟩ := ih hy
      exact ⟨x, by simp [hx], h'⟩

theorem entry_error {p : Package Str (CStr U) U} {e : ExportErr} (h : phpEntry p = .error e) : Fails p e := by
  unfold phpEntry at h
  cases hm : mapE (fun t => liftPkg (fromConstraints (U := U) .install t)) p.installRequires with
  | error e' =>
    rw [hm] at h
    cases h
    obtain ⟨t, ht, h'⟩ := mapE_error hm
    rw [liftPkg_error] at h'
    exact Or.inl ⟨t, ht, h'⟩
  | ok reqs =>
    rw [hm] at h
    simp only at h
    cases hd : requirementsToPhpDict reqs with
    | ok d => rw [hd] at h; cases h
    | error e' =>
      rw [hd] at h
      cases h
      obtain ⟨h1, r, hr, h2⟩ := requirementsDict_error hd
      rw [mapE_ok_iff] at hm
      have hm := hm.imp (fun a b hab => (liftPkg_ok _ _).1 hab)
      obtain ⟨t, ht, h3⟩ := forall₂_right hm hr
      refine Or.inr ⟨h1, fun t ht => ?_, t, ht, r, h3, h2⟩
      obtain ⟨r', -, h'⟩ := forall₂_left hm ht
      exact ⟨r', h'⟩

theorem exportable_of_ok {p : Package Str (CStr U) U} {x : PhpEntry} (h : phpEntry p = .ok x) : Exportable p := by
  unfold phpEntry at h
  cases hm : mapE (fun t => liftPkg (fromConstraints (U := U) .install t)) p.installRequires with
  | error e => rw [hm] at h; cases h
  | ok reqs =>
    rw [hm] at h
    simp only at h
    cases hd : requirementsToPhpDict reqs with
    | error e => rw [hd] at h; cases h
    | ok d =>
      rw [mapE_ok_iff] at hm
      have hm := hm.imp (fun a b hab => (liftPkg_ok _ _).1 hab)
      intro t ht
      obtain ⟨r, hr, h'⟩ := forall₂_left hm ht
      refine ⟨r, h', fun c hc => ?_⟩
      unfold requirementsToPhpDict at hd
      cases hl : phpLists reqs [] with
      | error e => rw [hl] at hd; cases hd
      | ok l =>
        obtain ⟨-, h2, -⟩ := phpLists_ok reqs _ _ hl
        obtain ⟨t', ht'⟩ := h2 r hr
        by_contra hn
        rw [(requirementString_error r .notImplemented).2 ⟨rfl, c, hc, hn⟩] at ht'
        cases ht'

theorem not_exportable {p : Package Str (CStr U) U} {e : ExportErr} (h : Fails p e) : ¬ Exportable p := by
  intro hx
  rcases h with ⟨t, ht, e', h', -⟩ | ⟨-, -, t, ht, r, hr, c, hc, hn⟩
  · obtain ⟨r, hr, -⟩ := hx t ht
    rw [h'] at hr
    cases hr
  · obtain ⟨r', hr', h2⟩ := hx t ht
    rw [hr] at hr'
    cases hr'
    exact hn (h2 c hc)

theorem phpEntries_ok : ∀ (ps : List (Package Str (CStr U) U)) (es : List PhpEntry), phpEntries ps = (es, none) ↔
    List.Forall₂ (fun p x => phpEntry p = .ok x) ps es
  | [], es => by
    simp only [phpEntries, Prod.mk.injEq, and_true]
    exact ⟨fun h => h ▸ .nil, fun h => by cases h; rfl⟩
  | p :: ps, es => by
    unfold phpEntries
    cases hp : phpEntry p with
    | error e =>
      simp only [Prod.mk.injEq, reduceCtorEq, and_false, false_iff]
      intro h
      cases h with
      | cons h1 _ => rw [hp] at h1; cases h1
    | ok x =>
      simp only [Prod.mk.injEq]
      constructor
      · rintro ⟨rfl, h⟩
        exact .cons hp ((phpEntries_ok ps _).1 (Prod.ext rfl h))
      · intro h
        cases h with
        | cons h1 h2 =>
          rw [hp] at h1
          cases h1
          rw [(phpEntries_ok ps _).2 h2]
          exact ⟨rfl, rfl⟩

theorem phpEntries_error : ∀ (ps : List (Package Str (CStr U) U)) (es : List PhpEntry) (e : ExportErr), phpEntries ps = (es, some e) ↔
    ∃ a p b, ps = a ++ p :: b ∧ List.Forall₂ (fun p x => phpEntry p = .ok x) a es ∧ phpEntry p = .error e
  | [], es, e => by simp [phpEntries]
  | p :: ps, es, e => by
    unfold phpEntries
    have ih := phpEntries_error ps
    cases hp : phpEntry p with
    | error e' =>
      simp only [Prod.mk.injEq, Option.some.injEq]
      constructor
      · rintro ⟨rfl, rfl⟩
        exact ⟨[], p, ps, rfl, .nil, hp⟩
      · rintro ⟨a, q, b, h1, h2, h3⟩
        cases a with
        | nil =>
          simp only [List.nil_append, List.cons.injEq] at h1
          obtain ⟨rfl, rfl⟩ := h1
          cases h2
          rw [hp] at h3
          cases h3
          exact ⟨rfl, rfl⟩
        | cons a0 a =>
          simp only [List.cons_append, List.cons.injEq] at h1
          obtain ⟨rfl, rfl⟩ := h1
          cases h2 with
          | cons h4 _ => rw [hp] at h4; cases h4
    | ok x =>
      simp only [Prod.mk.injEq]
      constructor
      · rintro ⟨rfl, h⟩
        obtain ⟨a, q, b, h1, h2, h3⟩ := (ih _ e).1 (Prod.ext rfl h)
        exact ⟨p :: a, q, b, by rw [h1]; rfl, .cons hp h2, h3⟩
      · rintro ⟨a, q, b, h1, h2, h3⟩
        cases a with
        | nil =>
          simp only [List.nil_append, List.cons.injEq] at h1
          obtain ⟨rfl, rfl⟩ := h1
          rw [hp] at h3
          cases h3
        | cons a0 a =>
          simp only [List.cons_append, List.cons.injEq] at h1
          obtain ⟨rfl, rfl⟩ := h1
          cases h2 with
          | cons h4 h5 =>
            rw [hp] at h4
            cases h4
            rw [(ih _ e).2 ⟨a, q, b, rfl, h5, h3⟩]
            exact ⟨rfl, rfl⟩

/-! ### C108 -/

/-- C108: `repository_to_composer_json_dict` yields one entry for each package, in the order of the repository, with its name,
version and requirements: under each name all constraints on it, in order. -/
theorem C108_entries {repo : Repository Str (CStr U) U} {es : List PhpEntry} (h : repositoryToComposer repo = (es, none)) :
    List.Forall₂ Exports repo.iter es :=
  ((phpEntries_ok _ _).1 h).imp (fun _ _ => entry_ok)

/-- C108: it succeeds exactly if the requirements of all packages can be read and consist of `*`, `==` and `^=`. -/
theorem C108_succeeds (repo : Repository Str (CStr U) U) : (repositoryToComposer repo).2 = none ↔ ∀ p ∈ repo.iter, Exportable p := by
  unfold repositoryToComposer
  cases h : phpEntries repo.iter with
  | mk es o =>
    cases o with
    | none =>
      simp only [true_iff]
      intro p hp
      obtain ⟨x, -, hx⟩ := forall₂_left ((phpEntries_ok _ _).1 h) hp
      exact exportable_of_ok hx
    | some e =>
      simp only [reduceCtorEq, false_iff, not_forall]
      obtain ⟨a, p, b, h1, -, h3⟩ := (phpEntries_error _ _ _).1 h
      exact ⟨p, by rw [h1]; simp, not_exportable (entry_error h3)⟩

/-- C108: otherwise it yields the entries of the packages before the first that has none, and raises NotImplementedError for a
constraint of another kind, or what reading the requirement raises. -/
theorem C108_refuses {repo : Repository Str (CStr U) U} {es : List PhpEntry} {e : ExportErr}
    (h : repositoryToComposer repo = (es, some e)) : ∃ before p after, repo.iter = before ++ p :: after ∧
      List.Forall₂ Exports before es ∧ (∀ q ∈ before, Exportable q) ∧ ¬ Exportable p ∧ Fails p e := by
  obtain ⟨a, p, b, h1, h2, h3⟩ := (phpEntries_error _ _ _).1 h
  refine ⟨a, p, b, h1, h2.imp (fun _ _ => entry_ok), ?_, not_exportable (entry_error h3), entry_error h3⟩
  intro q hq
  obtain ⟨x, -, hx⟩ := forall₂_left h2 hq
  exact exportable_of_ok hx

/-! ### C109 -/

/-- equal up to zeros at the end of one of them -/
def UpToZeros (a b : Str) : Prop := ∃ k, a = b ++ zeros k ∨ b = a ++ zeros k

/-- an upstream version that is not in the table and whose text begins with a digit and has neither dashes nor commas -/
structure PlainUpstream (u : U) : Prop where
  table : ∀ x, ¬ InTable (upstreamStr u) x
  digit : ∃ c s, upstreamStr u = c :: s ∧ c.isDigit = true
  dash : '-' ∉ upstreamStr u
  comma : ',' ∉ upstreamStr u

/-- versions that are the same for Composer -/
def AlikeVersions (v w : Version U) : Prop := v.build = w.build ∧ UpToZeros (upstreamStr v.upstream) (upstreamStr w.upstream)

/-- constraints of the same kind with such versions -/
inductive AlikeConstraints : Constraint U → Constraint U → Prop where
  | any : AlikeConstraints .any .any
  | equal {v w} : AlikeVersions v w → AlikeConstraints (.equal v) (.equal w)
  | upstream {v w} : AlikeVersions v w → AlikeConstraints (.upstream v) (.upstream w)

/-- the version of the constraint, if it has one, is plain -/
def PlainConstraint (c : Constraint U) : Prop := ∀ v, c = .equal v ∨ c = .upstream v → PlainUpstream v.upstream

/-- the constraints of a package on another, in order -/
def ConstraintsOn (p : Package Str (CStr U) U) (n : Str) (cs : List (Constraint U)) : Prop :=
  ∃ reqs, List.Forall₂ (fun t r => fromConstraints .install t = .ok r) p.installRequires reqs ∧
    cs = (reqs.filter (fun r => decide (r.name = n))).flatMap Requirement.constraints

theorem dash_split {a b x y : Str} (ha : '-' ∉ a) (hb : '-' ∉ b) (h : a ++ '-' :: x = b ++ '-' :: y) : a = b ∧ x = y := by
  have hs : ∀ (l r : Str), '-' ∉ l → (l ++ '-' :: r).takeWhile (fun c => c != '-') = l ∧
      (l ++ '-' :: r).dropWhile (fun c => c != '-') = '-' :: r := by
    intro l r hl
    have : ∀ c ∈ l, (c != '-') = true := fun c hc => by
      rw [bne_iff_ne]
      rintro rfl
      exact hl hc
    rw [List.takeWhile_append_of_pos this, List.dropWhile_append_of_pos this]
    simp
  have h1 := hs a x ha
  have h2 := hs b y hb
  rw [h] at h1
  exact ⟨h1.1.symm.trans h2.1, by simpa using h1.2.symm.trans h2.2⟩

theorem upToZeros_of {a b : Str} {j k : Nat} (h : a ++ zeros j = b ++ zeros k) : UpToZeros a b := by
  rcases Nat.le_total j k with hjk | hjk
  · refine ⟨k - j, Or.inl ?_⟩
    have e : zeros k = zeros (k - j) ++ zeros j := by rw [← zeros_add]; congr 1; omega
    rw [e, ← List.append_assoc] at h
    exact List.append_cancel_right h
  · refine ⟨j - k, Or.inr ?_⟩
    have e : zeros j = zeros (j - k) ++ zeros k := by rw [← zeros_add]; congr 1; omega
    rw [e, ← List.append_assoc] at h
    exact (List.append_cancel_right h).symm

/-- the text of a plain version is its own with zeros -/
theorem PlainUpstream.text {u : U} (h : PlainUpstream u) {t : Str} (ht : UpstreamText u t) : ∃ k, t = upstreamStr u ++ zeros k := by
  obtain ⟨b, k, hb, rfl, -⟩ := ht
  rcases hb with hb | ⟨-, rfl⟩
  · exact absurd hb (h.table b)
  · exact ⟨k, rfl⟩

theorem zeros_chars (k : Nat) : ∀ c ∈ zeros k, c = '.' ∨ c = '0' := by
  induction k with
  | zero => simp [zeros]
  | succ k ih =>
    rw [zeros_succ]
    intro c hc
    rcases List.mem_cons.1 hc with rfl | hc
    · exact Or.inl rfl
    rcases List.mem_cons.1 hc with rfl | hc
    · exact Or.inr rfl
    · exact ih c hc

theorem PlainUpstream.no_dash {u : U} (h : PlainUpstream u) {t : Str} (ht : UpstreamText u t) : '-' ∉ t := by
  obtain ⟨k, rfl⟩ := h.text ht
  rw [List.mem_append]
  rintro (h' | h')
  · exact h.dash h'
  · rcases zeros_chars k _ h' with h' | h' <;> revert h' <;> decide

theorem PlainUpstream.no_comma {u : U} (h : PlainUpstream u) {t : Str} (ht : UpstreamText u t) : ',' ∉ t := by
  obtain ⟨k, rfl⟩ := h.text ht
  rw [List.mem_append]
  rintro (h' | h')
  · exact h.comma h'
  · rcases zeros_chars k _ h' with h' | h' <;> revert h' <;> decide

theorem digits_inj {m n : Nat} (h : Nat.toDigits 10 m = Nat.toDigits 10 n) : m = n := by
  have h1 := Solve.readNat_digits m
  rw [h, Solve.readNat_digits n] at h1
  exact (Option.some.inj h1).symm

theorem upstreamTexts_alike {u w : U} (hu : PlainUpstream u) (hw : PlainUpstream w) {t : Str} (h : UpstreamText u t)
    (h' : UpstreamText w t) : UpToZeros (upstreamStr u) (upstreamStr w) := by
  obtain ⟨j, hj⟩ := hu.text h
  obtain ⟨k, hk⟩ := hw.text h'
  exact upToZeros_of (hj.symm.trans hk)

/-- C109: two versions that have the same text have the same build number, and upstream versions that differ at most in zeros at
the end, except for the versions in the table and those with dashes. -/
theorem C109_versions_partial {v w : Version U} (hv : PlainUpstream v.upstream) (hw : PlainUpstream w.upstream) {t : Str}
    (h : NormalText v t) (h' : NormalText w t) : AlikeVersions v w := by
  obtain ⟨a, ha, rfl⟩ := h
  obtain ⟨b, hb, e⟩ := h'
  obtain ⟨rfl, e'⟩ := dash_split (x := "patch".toList ++ Nat.toDigits 10 v.build)
    (y := "patch".toList ++ Nat.toDigits 10 w.build) (hv.no_dash ha) (hw.no_dash hb) e
  refine ⟨digits_inj (List.append_cancel_left (as := "patch".toList) ?_), upstreamTexts_alike hv hw ha hb⟩
  exact e'

theorem boundTexts_alike {v w : Version U} (hv : PlainUpstream v.upstream) (hw : PlainUpstream w.upstream) {t : Str}
    (h : BoundText v t) (h' : BoundText w t) : AlikeVersions v w := by
  cases h with
  | first h1 h2 =>
    cases h' with
    | first h3 h4 => exact ⟨h1.trans h3.symm, upstreamTexts_alike hv hw h2 h4⟩
    | later h3 h4 =>
      obtain ⟨b, hb, rfl⟩ := h4
      exact absurd (by simp) (hv.no_dash h2)
  | later h1 h2 =>
    cases h' with
    | first h3 h4 =>
      obtain ⟨b, hb, rfl⟩ := h2
      exact absurd (by simp) (hw.no_dash h4)
    | later h3 h4 => exact C109_versions_partial hv hw h2 h4

theorem bound_first {v : Version U} (hv : PlainUpstream v.upstream) {t : Str} (h : BoundText v t) :
    ∃ c s, t = c :: s ∧ c.isDigit = true := by
  obtain ⟨c, s, e, hc⟩ := hv.digit
  cases h with
  | first _ h2 =>
    obtain ⟨k, rfl⟩ := hv.text h2
    exact ⟨c, s ++ zeros k, by rw [e]; rfl, hc⟩
  | later _ h2 =>
    obtain ⟨u, hu, rfl⟩ := h2
    obtain ⟨k, rfl⟩ := hv.text hu
    exact ⟨c, _, by rw [e]; rfl, hc⟩

theorem bound_no_comma {v : Version U} (hv : PlainUpstream v.upstream) {t : Str} (h : BoundText v t) : ',' ∉ t := by
  cases h with
  | first _ h2 => exact hv.no_comma h2
  | later _ h2 =>
    obtain ⟨u, hu, rfl⟩ := h2
    rw [List.mem_append, List.mem_append]
    rintro (h' | h' | h')
    · exact hv.no_comma hu h'
    · revert h'; decide
    · have := Solve.digits_chars h'
      revert this; decide

/-- C109: two constraints that have the same text are of the same kind, with versions as above. -/
theorem C109_constraints_partial {c d : Constraint U} (hc : PlainConstraint c) (hd : PlainConstraint d) {t : Str}
    (h : RequireText c t) (h' : RequireText d t) : AlikeConstraints c d := by
  cases h with
  | any =>
    cases h' with
    | any => exact .any
    | equal h2 =>
      obtain ⟨x, s, e, hx⟩ := bound_first (hd _ (Or.inl rfl)) h2
      cases e
      exact absurd hx (by decide)
  | equal h1 =>
    obtain ⟨x, s, e, hx⟩ := bound_first (hc _ (Or.inl rfl)) h1
    cases h' with
    | any => cases e; exact absurd hx (by decide)
    | equal h2 => exact .equal (boundTexts_alike (hc _ (Or.inl rfl)) (hd _ (Or.inl rfl)) h1 h2)
    | upstream h2 => cases e; exact absurd hx (by decide)
  | upstream h1 =>
    cases h' with
    | equal h2 =>
      obtain ⟨x, s, e, hx⟩ := bound_first (hd _ (Or.inl rfl)) h2
      cases e
      exact absurd hx (by decide)
    | upstream h2 => exact .upstream (boundTexts_alike (hc _ (Or.inr rfl)) (hd _ (Or.inr rfl)) h1 h2)

theorem require_no_comma {c : Constraint U} (hc : PlainConstraint c) {t : Str} (h : RequireText c t) : ',' ∉ t := by
  cases h with
  | any => decide
  | equal h1 => exact bound_no_comma (hc _ (Or.inl rfl)) h1
  | upstream h1 =>
    have := bound_no_comma (hc _ (Or.inr rfl)) h1
    rw [List.mem_cons]
    rintro (h' | h')
    · revert h'; decide
    · exact this h'

theorem joinComma_cons (p : Str) {ps : List Str} (h : ps ≠ []) : joinComma (p :: ps) = p ++ ',' :: ' ' :: joinComma ps := by
  cases ps with
  | nil => exact absurd rfl h
  | cons q qs => rfl

theorem comma_split {a b x y : Str} (ha : ',' ∉ a) (hb : ',' ∉ b) (h : a ++ ',' :: x = b ++ ',' :: y) : a = b ∧ x = y := by
  induction a generalizing b with
  | nil =>
    cases b with
    | nil => exact ⟨rfl, by simpa using h⟩
    | cons c b =>
      simp only [List.nil_append, List.cons_append, List.cons.injEq] at h
      exact absurd (by rw [h.1]; simp) hb
  | cons d a ih =>
    cases b with
    | nil =>
      simp only [List.nil_append, List.cons_append, List.cons.injEq] at h
      exact absurd (by rw [h.1]; simp) ha
    | cons c b =>
      simp only [List.cons_append, List.cons.injEq] at h
      obtain ⟨h1, h2⟩ := ih (b := b) (fun k => ha (by simp [k])) (fun k => hb (by simp [k])) h.2
      exact ⟨by rw [h.1, h1], h2⟩

theorem joinComma_inj : ∀ (ps qs : List Str), ps ≠ [] → qs ≠ [] → (∀ p ∈ ps, ',' ∉ p) → (∀ q ∈ qs, ',' ∉ q) →
    joinComma ps = joinComma qs → ps = qs
  | [], _, h, _, _, _, _ => absurd rfl h
  | _, [], _, h, _, _, _ => absurd rfl h
  | [p], [q], _, _, _, _, h => by rw [show p = q from h]
  | [p], q :: q' :: qs, _, _, hp, _, h => by
    rw [joinComma_cons q (by simp)] at h
    exact absurd (by rw [show p = _ from h]; simp) (hp p (by simp))
  | p :: p' :: ps, [q], _, _, _, hq, h => by
    rw [joinComma_cons p (by simp)] at h
    exact absurd (by rw [← show _ = q from h]; simp) (hq q (by simp))
  | p :: p' :: ps, q :: q' :: qs, _, _, hp, hq, h => by
    rw [joinComma_cons p (by simp), joinComma_cons q (by simp)] at h
    obtain ⟨h1, h2⟩ := comma_split (hp p (by simp)) (hq q (by simp)) h
    rw [h1, joinComma_inj (p' :: ps) (q' :: qs) (by simp) (by simp) (fun x hx => hp x (by simp [hx]))
      (fun x hx => hq x (by simp [hx])) (by simpa using h2)]

theorem joinComma_append {a b : List Str} (ha : a ≠ []) (hb : b ≠ []) : joinComma (a ++ b) = joinComma a ++ ',' :: ' ' :: joinComma b := by
  induction a with
  | nil => exact absurd rfl ha
  | cons x a ih =>
    cases a with
    | nil => exact joinComma_cons x hb
    | cons y a =>
      rw [List.cons_append, joinComma_cons x (by simp), ih (by simp), joinComma_cons x (ps := y :: a) (by simp)]
      simp

/-- the texts of requirements are those of all their constraints -/
theorem requirementTexts_flat : ∀ {rs : List (Requirement Str U)} {ts : List Str}, List.Forall₂ RequirementText rs ts →
    (∀ r ∈ rs, r.constraints ≠ []) → ∃ us, List.Forall₂ RequireText (rs.flatMap Requirement.constraints) us ∧ joinComma ts = joinComma us := by
  intro rs ts h
  induction h with
  | nil => intro _; exact ⟨[], .nil, rfl⟩
  | @cons r t rs ts h1 h2 ih =>
    intro hne
    obtain ⟨us, hu, e⟩ := ih (fun x hx => hne x (by simp [hx]))
    obtain ⟨vs, hv, rfl⟩ := h1
    refine ⟨vs ++ us, ?_, ?_⟩
    · rw [List.flatMap_cons]
      exact List.rel_append hv hu
    · have hvs : vs ≠ [] := by
        rintro rfl
        exact hne r (by simp) (List.forall₂_nil_right_iff.1 hv)
      cases h2 with
      | nil =>
        cases hu
        rw [List.append_nil]
        rfl
      | @cons r' t' rs' ts' h3 h4 =>
        have hus : us ≠ [] := by
          rintro rfl
          have h5 : (r' :: rs').flatMap Requirement.constraints = [] := by
            generalize (r' :: rs').flatMap Requirement.constraints = z at hu
            cases hu; rfl
          rw [List.flatMap_cons, List.append_eq_nil_iff] at h5
          exact hne r' (by simp) h5.1
        rw [joinComma_cons _ (by simp), e, joinComma_append hvs hus]

theorem forall₂_join {α β : Type} {R : α → β → Prop} {T : α → α → Prop} {P : α → Prop} (hT : ∀ a b t, P a → P b → R a t → R b t → T a b) :
    ∀ {l m : List α} {ts : List β}, List.Forall₂ R l ts → List.Forall₂ R m ts → (∀ a ∈ l, P a) → (∀ a ∈ m, P a) → List.Forall₂ T l m := by
  intro l m ts h
  induction h generalizing m with
  | nil => intro h' _ _; cases h'; exact .nil
  | cons h1 _ ih =>
    intro h' hl hm
    cases h' with
    | cons h3 h4 =>
      exact .cons (hT _ _ _ (hl _ (by simp)) (hm _ (by simp)) h1 h3)
        (ih h4 (fun a ha => hl a (by simp [ha])) (fun a ha => hm a (by simp [ha])))

theorem constraints_unique {p : Package Str (CStr U) U} {rs rs' : List (Requirement Str U)}
    (h : List.Forall₂ (fun t r => fromConstraints .install t = .ok r) p.installRequires rs)
    (h' : List.Forall₂ (fun t r => fromConstraints .install t = .ok r) p.installRequires rs') : rs = rs' :=
  forall₂_unique (fun a b b' h1 h2 => by rw [h1] at h2; exact Except.ok.inj h2) h h'

/-- C109: packages with the same entry have the same name and version text, and for each name the same constraints, up to versions as
above; their conflicts may differ (see C109_violated_conflicts). -/
theorem C109_entries_partial {p q : Package Str (CStr U) U} {e : PhpEntry} (hp : Exports p e) (hq : Exports q e) :
    p.name = q.name ∧ toStr p.version = toStr q.version ∧
    ∀ n cs cs', ConstraintsOn p n cs → ConstraintsOn q n cs' → (∀ c ∈ cs, PlainConstraint c) → (∀ c ∈ cs', PlainConstraint c) →
      (∀ t ∈ p.installRequires ++ q.installRequires, ∀ r : Requirement Str U, fromConstraints .install t = .ok r → r.constraints ≠ []) →
      List.Forall₂ AlikeConstraints cs cs' := by
  refine ⟨hp.name.symm.trans hq.name, hp.version.symm.trans hq.version, ?_⟩
  rintro n cs cs' ⟨rs, h1, rfl⟩ ⟨rs', h1', rfl⟩ hc hc' hne
  obtain ⟨rs0, h2, h3⟩ := hp.require
  obtain ⟨rs0', h2', h3'⟩ := hq.require
  obtain rfl := constraints_unique h1 h2
  obtain rfl := constraints_unique h1' h2'
  have hne1 : ∀ r ∈ rs, r.constraints ≠ [] := fun r hr => by
    obtain ⟨t, ht, h⟩ := forall₂_right h1 hr
    exact hne t (by simp [ht]) r h
  have hne2 : ∀ r ∈ rs', r.constraints ≠ [] := fun r hr => by
    obtain ⟨t, ht, h⟩ := forall₂_right h1' hr
    exact hne t (by simp [ht]) r h
  cases hd : dget e.require n with
  | none =>
    have hno : ∀ (l : List (Requirement Str U)), ¬ (∃ r ∈ l, r.name = n) → l.filter (fun r => decide (r.name = n)) = [] := by
      intro l hl
      rw [List.filter_eq_nil_iff]
      intro x hx hxn
      exact hl ⟨x, hx, by simpa using hxn⟩
    have hk : n ∉ dkeys e.require := by
      rw [mem_dkeys_iff, hd]
      simp
    rw [hno rs (fun h => hk ((h3 n).1.2 h)), hno rs' (fun h => hk ((h3' n).1.2 h))]
    exact .nil
  | some text =>
    have hk : n ∈ dkeys e.require := (mem_dkeys_iff _ _).2 ⟨text, hd⟩
    obtain ⟨r, hr, hrn⟩ := (h3 n).1.1 hk
    obtain ⟨r', hr', hrn'⟩ := (h3' n).1.1 hk
    obtain ⟨ts, hts, e1⟩ := (h3 n).2 text hd
    obtain ⟨ts', hts', e2⟩ := (h3' n).2 text hd
    obtain ⟨us, hu, e3⟩ := requirementTexts_flat hts (fun r hr => hne1 r (List.mem_filter.1 hr).1)
    obtain ⟨us', hu', e4⟩ := requirementTexts_flat hts' (fun r hr => hne2 r (List.mem_filter.1 hr).1)
    have hnn : ∀ {l : List (Requirement Str U)} {us : List Str}, (∀ r ∈ l, r.constraints ≠ []) → (∃ r ∈ l, r.name = n) →
        List.Forall₂ RequireText ((l.filter (fun r => decide (r.name = n))).flatMap Requirement.constraints) us → us ≠ [] := by
      rintro l us hl ⟨r, hr, hrn⟩ hu rfl
      have h5 : (l.filter (fun r => decide (r.name = n))).flatMap Requirement.constraints = [] := by
        generalize (l.filter (fun r => decide (r.name = n))).flatMap Requirement.constraints = z at hu
        cases hu; rfl
      rw [List.flatMap_eq_nil_iff] at h5
      exact hl r hr (h5 r (List.mem_filter.2 ⟨hr, by simpa using hrn⟩))
    have hcm : ∀ {cs : List (Constraint U)} {us : List Str}, (∀ c ∈ cs, PlainConstraint c) → List.Forall₂ RequireText cs us →
        ∀ t ∈ us, ',' ∉ t := by
      intro cs us hcs hu t ht
      obtain ⟨c, hc, h⟩ := forall₂_right hu ht
      exact require_no_comma (hcs c hc) h
    have := joinComma_inj us us' (hnn hne1 ⟨r, hr, hrn⟩ hu) (hnn hne2 ⟨r', hr', hrn'⟩ hu') (hcm hc hu) (hcm hc' hu')
      (by rw [← e3, ← e4, ← e1, ← e2])
    subst this
    exact forall₂_join (R := RequireText) (P := PlainConstraint) (fun a b t ha hb h h' => C109_constraints_partial ha hb h h') hu hu' hc hc'

/-- C109: `== v` has the text of the version v, if the build number is not 0. -/
theorem C109_equal_partial {v : Version U} (hv : v.build ≠ 0) (t : Str) : RequireText (.equal v) t ↔ NormalText v t := by
  constructor
  · intro h
    cases h with
    | equal h1 =>
      cases h1 with
      | first h2 _ => exact absurd h2 hv
      | later _ h2 => exact h2
  · exact fun h => .equal (.later hv h)

/-- C109: a package of version `v-0` does not have the text of `== v-0`. -/
theorem C109_violated_equal {v : Version U} (hv : v.build = 0) {t t' : Str} (h : RequireText (.equal v) t) (h' : NormalText v t') :
    t ≠ t' := by
  cases h with
  | equal h1 =>
    cases h1 with
    | later h2 _ => exact absurd hv h2
    | first _ h2 =>
      obtain ⟨u, hu, rfl⟩ := h'
      rw [upstreamText_iff] at h2 hu
      subst h2 hu
      intro e
      have := congrArg List.length e
      simp at this

/-! ### C110 -/

theorem phpPart_iff (j : Job Str U) (part : Str × Str × Str) : phpPart j = .ok part ↔ SendsJob j part := by
  obtain ⟨m, n, cs⟩ := part
  unfold phpPart SendsJob requirementToPhpConstraints
  cases hr : j.requirement with
  | none => simp
  | some r =>
    simp only [Option.some.injEq, ← forall₂_iff (requestPart_iff (U := U)), ← mapE_ok_iff]
    cases hm : mapE requestPart r.constraints with
    | error e =>
      simp only [reduceCtorEq, false_iff, not_exists]
      rintro r' ts ⟨rfl, h, -⟩
      rw [hm] at h
      cases h
    | ok parts =>
      constructor
      · intro h
        cases hk : j.kind with
        | install => simp only [hk, phpMethod] at h; cases h; exact ⟨r, parts, rfl, hm, Or.inl ⟨rfl, rfl⟩, rfl, rfl⟩
        | remove => simp only [hk, phpMethod] at h; cases h; exact ⟨r, parts, rfl, hm, Or.inr ⟨rfl, rfl⟩, rfl, rfl⟩
        | _ => simp only [hk, phpMethod] at h; cases h
      · rintro ⟨r', ts, rfl, h, hk, h1, h2⟩
        rw [hm] at h
        cases h
        subst h1 h2
        rcases hk with ⟨hk, h3⟩ | ⟨hk, h3⟩
        · simp only [hk, phpMethod]; rw [h3]
        · simp only [hk, phpMethod]; rw [h3]

/-- C110: the parts are those of the jobs, in order; `request_to_php_parts` returns them if all jobs install or remove packages and
all constraints are `*`, `>=`, `>`, `<=` and `<`. -/
theorem C110_parts (q : Request Str U) (parts : List (Str × Str × Str)) :
    requestToPhpParts q = .ok parts ↔ List.Forall₂ SendsJob q.jobs parts := by
  unfold requestToPhpParts
  rw [mapE_ok_iff]
  exact forall₂_iff phpPart_iff

/-- C110: otherwise it raises, for the first job that has none: AttributeError for an upgrade, ValueError for a constraint of another
kind, KeyError for an update. -/
theorem C110_refuses (q : Request Str U) (e : ExportErr) : requestToPhpParts q = .error e ↔
    ∃ before j after, q.jobs = before ++ j :: after ∧ (∀ i ∈ before, ∃ part, SendsJob i part) ∧
      (j.requirement = none ∧ e = .attributeError ∨
       ∃ r, j.requirement = some r ∧ ((∃ c ∈ r.constraints, ¬ Requestable c) ∧ e = .valueError ∨
         (∀ c ∈ r.constraints, Requestable c) ∧ j.kind ≠ .install ∧ j.kind ≠ .remove ∧ e = .keyError)) := by
  have hj : ∀ j : Job Str U, phpPart j = .error e ↔ (j.requirement = none ∧ e = .attributeError ∨
       ∃ r, j.requirement = some r ∧ ((∃ c ∈ r.constraints, ¬ Requestable c) ∧ e = .valueError ∨
         (∀ c ∈ r.constraints, Requestable c) ∧ j.kind ≠ .install ∧ j.kind ≠ .remove ∧ e = .keyError)) := by
    intro j
    unfold phpPart requirementToPhpConstraints
    cases hr : j.requirement with
    | none => simp [eq_comm]
    | some r =>
      simp only [reduceCtorEq, false_and, false_or, Option.some.injEq, exists_eq_left']
      cases hm : mapE requestPart r.constraints with
      | error e' =>
        obtain ⟨c, hc, h⟩ := mapE_error hm
        rw [requestPart_error] at h
        simp only [Except.error.injEq]
        constructor
        · rintro rfl
          exact Or.inl ⟨⟨c, hc, h.2⟩, h.1⟩
        · rintro (⟨-, rfl⟩ | ⟨h', -⟩)
          · exact h.1
          · exact absurd (h' c hc) h.2
      | ok parts =>
        have hall : ∀ c ∈ r.constraints, Requestable c := by
          intro c hc
          by_contra hn
          obtain ⟨t, -, ht⟩ := mapE_all hm hc
          rw [(requestPart_error c .valueError).2 ⟨rfl, hn⟩] at ht
          cases ht
        have hno : ¬ ∃ c ∈ r.constraints, ¬ Requestable c := fun ⟨c, hc, hn⟩ => hn (hall c hc)
        cases hk : j.kind <;> simp [phpMethod, hno, eq_comm]
        all_goals exact fun _ => hall
  unfold requestToPhpParts
  rw [mapE_error_iff]
  constructor
  · rintro ⟨a, j, b, ys, h1, h2, h3⟩
    refine ⟨a, j, b, h1, fun i hi => ?_, (hj j).1 h3⟩
    obtain ⟨y, -, hy⟩ := forall₂_left h2 hi
    exact ⟨y, (phpPart_iff i y).1 hy⟩
  · rintro ⟨a, j, b, h1, h2, h3⟩
    obtain ⟨ys, hys⟩ := mapE_ok_of (f := phpPart) (xs := a) (fun i hi => by
      obtain ⟨y, hy⟩ := h2 i hi
      exact ⟨y, (phpPart_iff i y).2 hy⟩)
    exact ⟨a, j, b, ys, h1, (mapE_ok_iff _ _ _).1 hys, (hj j).2 h3⟩

/-! ### C111 -/

theorem writeEntries_spec (path : Str) (r : Repository Str (CStr U) U) (files : Files) :
    (∀ f, f ≠ path → dget (writeEntries path r files).1 f = dget files f) ∧
    ((writeEntries path r files).2 = (repositoryToComposer r).2) ∧
    dget (writeEntries path r files).1 path = some (if (repositoryToComposer r).2 = none then some (repositoryToComposer r).1 else none) := by
  unfold writeEntries
  cases h : repositoryToComposer r with
  | mk es o =>
    cases o with
    | some e =>
      refine ⟨fun f hf => ?_, rfl, ?_⟩
      · simp only [dget_dset, if_neg (Ne.symm hf)]
      · simp [dget_dset]
    | none =>
      refine ⟨fun f hf => ?_, rfl, ?_⟩
      · simp only [dget_dset, if_neg (Ne.symm hf)]
      · simp [dget_dset]

/-- C111: if the export of a scenario succeeds, then the two files hold the entries of the first remote repository and of the
installed packages, no other file is changed, and the result has the paths and the parts of the request. -/
theorem C111_export_partial {sc : ExportScenario (CStr U) U} {rpath ipath : Str} {files files' : Files} {tv : TemplateVariables}
    (h : scenarioToPhp sc rpath ipath files = (files', .ok tv)) :
    ∃ remote rest res ies, sc.remotes = remote :: rest ∧ List.Forall₂ Exports remote.iter res ∧
      List.Forall₂ Exports sc.installed.iter ies ∧ dget files' ipath = some (some ies) ∧
      (rpath ≠ ipath → dget files' rpath = some (some res)) ∧ (∀ f, f ≠ rpath → f ≠ ipath → dget files' f = dget files f) ∧
      tv.remoteDefinition = rpath ∧ tv.installedDefinition = ipath ∧ List.Forall₂ SendsJob sc.request.jobs tv.requestParts := by
  unfold scenarioToPhp at h
  cases hr : sc.remotes with
  | nil => rw [hr] at h; cases h
  | cons remote rest =>
    rw [hr] at h
    simp only at h
    obtain ⟨a1, a2, a3⟩ := writeEntries_spec rpath remote files
    cases hw : writeEntries rpath remote files with
    | mk f1 o1 =>
      simp only [hw] at h a1 a2 a3
      cases o1 with
      | some e => cases h
      | none =>
        simp only at h
        obtain ⟨b1, b2, b3⟩ := writeEntries_spec ipath sc.installed f1
        cases hw' : writeEntries ipath sc.installed f1 with
        | mk f2 o2 =>
          simp only [hw'] at h b1 b2 b3
          cases o2 with
          | some e => cases h
          | none =>
            simp only at h
            cases hq : requestToPhpParts sc.request with
            | error e => rw [hq] at h; cases h
            | ok parts =>
              rw [hq] at h
              cases h
              rw [if_pos a2.symm] at a3
              rw [if_pos b2.symm] at b3
              refine ⟨remote, rest, _, _, rfl, C108_entries (Prod.ext rfl a2.symm), C108_entries (Prod.ext rfl b2.symm), b3, ?_, ?_,
                rfl, rfl, (C110_parts _ _).1 hq⟩
              · intro hne
                rw [b1 _ hne, a3]
              · intro f h1 h2
                rw [b1 _ h2, a1 _ h1]

/-- C111: it succeeds exactly if there is a remote repository and both repositories and the request can be exported. -/
theorem C111_succeeds (sc : ExportScenario (CStr U) U) (rpath ipath : Str) (files : Files) :
    (∃ tv, (scenarioToPhp sc rpath ipath files).2 = .ok tv) ↔
      (∃ remote rest, sc.remotes = remote :: rest ∧ ∀ p ∈ remote.iter, Exportable p) ∧ (∀ p ∈ sc.installed.iter, Exportable p) ∧
      ∃ parts, List.Forall₂ SendsJob sc.request.jobs parts := by
  unfold scenarioToPhp
  cases hr : sc.remotes with
  | nil => simp
  | cons remote rest =>
    simp only [List.cons.injEq, ← C110_parts, ← C108_succeeds]
    obtain ⟨a1, a2, a3⟩ := writeEntries_spec rpath remote files
    cases hw : writeEntries rpath remote files with
    | mk f1 o1 =>
      rw [hw] at a2
      simp only at a2
      cases o1 with
      | some e =>
        simp only [reduceCtorEq, exists_false, false_iff, not_and]
        rintro ⟨r, t, ⟨rfl, rfl⟩, h⟩ _ _
        rw [← a2] at h
        cases h
      | none =>
        simp only
        obtain ⟨b1, b2, b3⟩ := writeEntries_spec ipath sc.installed f1
        cases hw' : writeEntries ipath sc.installed f1 with
        | mk f2 o2 =>
          rw [hw'] at b2
          simp only at b2
          cases o2 with
          | some e =>
            simp only [reduceCtorEq, exists_false, false_iff, not_and]
            rintro - h
            rw [← b2] at h
            cases h
          | none =>
            simp only
            cases hq : requestToPhpParts sc.request with
            | error e => simp
            | ok parts =>
              simp only [Except.ok.injEq, exists_eq', true_iff]
              exact ⟨⟨remote, rest, ⟨rfl, rfl⟩, a2.symm⟩, b2.symm, trivial⟩

/-- C111: whatever happens, no file other than the two is changed, and a file that is left without its entries is empty. -/
theorem C111_files_partial (sc : ExportScenario (CStr U) U) (rpath ipath : Str) (files : Files) :
    (∀ f, f ≠ rpath → f ≠ ipath → dget (scenarioToPhp sc rpath ipath files).1 f = dget files f) ∧
    ∀ f, dget (scenarioToPhp sc rpath ipath files).1 f = dget files f ∨ dget (scenarioToPhp sc rpath ipath files).1 f = some none ∨
      ∃ es, dget (scenarioToPhp sc rpath ipath files).1 f = some (some es) ∧
        (List.Forall₂ Exports sc.installed.iter es ∨ ∃ remote ∈ sc.remotes, List.Forall₂ Exports remote.iter es) := by
  unfold scenarioToPhp
  cases hr : sc.remotes with
  | nil => exact ⟨fun _ _ _ => rfl, fun _ => Or.inl rfl⟩
  | cons remote rest =>
    simp only
    have hw : ∀ path (r : Repository Str (CStr U) U) files f, dget (writeEntries path r files).1 f = dget files f ∨
        dget (writeEntries path r files).1 f = some none ∨
        ∃ es, dget (writeEntries path r files).1 f = some (some es) ∧ List.Forall₂ Exports r.iter es := by
      intro path r files f
      obtain ⟨a1, a2, a3⟩ := writeEntries_spec path r files
      by_cases hf : f = path
      · subst hf
        rw [a3]
        by_cases h : (repositoryToComposer r).2 = none
        · rw [if_pos h]
          exact Or.inr (Or.inr ⟨_, rfl, C108_entries (Prod.ext rfl h)⟩)
        · rw [if_neg h]
          exact Or.inr (Or.inl rfl)
      · exact Or.inl (a1 f hf)
    have a1 := (writeEntries_spec rpath remote files).1
    have aw := hw rpath remote files
    cases hw1 : writeEntries rpath remote files with
    | mk f1 o1 =>
      simp only [hw1] at a1 aw
      have first : (∀ f, f ≠ rpath → f ≠ ipath → dget f1 f = dget files f) ∧ ∀ f, dget f1 f = dget files f ∨ dget f1 f = some none ∨
          ∃ es, dget f1 f = some (some es) ∧ (List.Forall₂ Exports sc.installed.iter es ∨ ∃ r ∈ remote :: rest, List.Forall₂ Exports r.iter es) := by
        refine ⟨fun f h _ => a1 f h, fun f => ?_⟩
        rcases aw f with h | h | ⟨es, h, h'⟩
        · exact Or.inl h
        · exact Or.inr (Or.inl h)
        · exact Or.inr (Or.inr ⟨es, h, Or.inr ⟨remote, by simp, h'⟩⟩)
      cases o1 with
      | some e => exact first
      | none =>
        simp only
        have b1 := (writeEntries_spec ipath sc.installed f1).1
        have bw := hw ipath sc.installed f1
        cases hw2 : writeEntries ipath sc.installed f1 with
        | mk f2 o2 =>
          simp only [hw2] at b1 bw
          have second : (∀ f, f ≠ rpath → f ≠ ipath → dget f2 f = dget files f) ∧ ∀ f, dget f2 f = dget files f ∨ dget f2 f = some none ∨
              ∃ es, dget f2 f = some (some es) ∧ (List.Forall₂ Exports sc.installed.iter es ∨ ∃ r ∈ remote :: rest, List.Forall₂ Exports r.iter es) := by
            refine ⟨fun f h h' => by rw [b1 f h', a1 f h], fun f => ?_⟩
            rcases bw f with h | h | ⟨es, h, h'⟩
            · rw [h]
              exact first.2 f
            · exact Or.inr (Or.inl h)
            · exact Or.inr (Or.inr ⟨es, h, Or.inl h'⟩)
          cases o2 with
          | some e => exact second
          | none =>
            simp only
            cases requestToPhpParts sc.request with
            | error e => exact second
            | ok parts => exact second

end

/-! ### concrete cases: upstream versions are any texts -/
namespace ComposerExample
open Verif.Text.Example

/-- a number, or 0 -/
def readBuild (s : Str) : Nat := if s ≠ [] ∧ s.all Char.isDigit = true then Nat.ofDigitChars 10 s 0 else 0

/-- "1.0a3-2" is the upstream version "1.0a3" with build number 2 -/
instance : VersionText Str where
  ofString := fun s => .ok ⟨s.takeWhile (fun c => c != '-'), readBuild ((s.dropWhile (fun c => c != '-')).drop 1)⟩
  toStr := fun v => v.upstream ++ '-' :: Nat.toDigits 10 v.build
  upstreamStr := fun u => u
  ofString_err := by intro s e h; cases h

def ver (u : String) (b : Nat) : Version Str := ⟨str u, b⟩

/-- a package with requirements -/
def package (name : String) (v : Version Str) (requires : List (String × List String)) (conflicts : List (String × List String)) :
    Package Str (CStr Str) Str :=
  { name := str name
    version := v
    installRequires := requires.map (fun x => (str x.1, [x.2.map (fun s => ⟨str s⟩)]))
    conflicts := conflicts.map (fun x => (str x.1, [x.2.map (fun s => ⟨str s⟩)]))
    declaredProvides := []
    repo := none }

def mkl : Package Str (CStr Str) Str := package "MKL" (ver "10.3" 1) [] []
def numpy : Package Str (CStr Str) Str := package "numpy" (ver "1.0a3" 0) [("MKL", ["^= 10.3", "== 10.3-1"]), ("nose", []), ("MKL", ["*"])] []
def scipy : Package Str (CStr Str) Str := package "scipy" (ver "0.11" 2) [("numpy", [">= 1.0"])] []

/-- C108: two packages and their entries -/
theorem example_entries : repositoryToComposer (Repository.ofList [numpy, mkl]) = ([
    { name := str "MKL", version := str "10.3-1", versionNormalized := str "10.3.0.0-patch1", require := [] },
    { name := str "numpy", version := str "1.0a3-0", versionNormalized := str "1.0.0.0-patch0",
      require := [(str "MKL", str "~10.3.0.0, 10.3.0.0-patch1, *"), (str "nose", str "*")] }], none) := by decide +kernel

example : ∀ p ∈ (Repository.ofList [numpy, mkl]).iter, Exportable p := by
  rw [← C108_succeeds, example_entries]

/-- C108: a lower bound is refused, after the entries of the packages before it -/
theorem example_refused : (repositoryToComposer (Repository.ofList [scipy, mkl])).2 = some .notImplemented ∧
    (repositoryToComposer (Repository.ofList [scipy, mkl])).1.map PhpEntry.name = [str "MKL"] := by decide +kernel

/-- C109: a plain version, as `C109_versions_partial` wants it -/
example : PlainUpstream (U := Str) (str "10.3") :=
  ⟨by
    have h : str "10.3" ∉ toNormalize.map Prod.fst := by decide +kernel
    exact fun x hx => h (List.mem_map.2 ⟨_, (inTable_iff _ _).1 hx, rfl⟩), ⟨'1', str "0.3", rfl, by decide⟩, by decide +kernel, by decide +kernel⟩

/-- C109: there are versions with the same text that differ in zeros -/
example : NormalText (ver "10.3" 1) (str "10.3.0.0-patch1") ∧ NormalText (ver "10.3.0" 1) (str "10.3.0.0-patch1") := by
  rw [normalText_iff, normalText_iff]
  constructor <;> decide +kernel

theorem upToZeros_length {a b : Str} (h : UpToZeros a b) (hl : a.length = b.length) : a = b := by
  obtain ⟨k, h | h⟩ := h
  · have h2 := congrArg List.length h
    rw [List.length_append] at h2
    have h3 : zeros k = [] := List.eq_nil_of_length_eq_zero (by omega)
    rw [h, h3, List.append_nil]
  · have h2 := congrArg List.length h
    rw [List.length_append] at h2
    have h3 : zeros k = [] := List.eq_nil_of_length_eq_zero (by omega)
    rw [h, h3, List.append_nil]

/-- C109: different versions have the same text: those in the table. -/
theorem C109_violated_table : ∃ (v w : Version Str) (t : Str), NormalText v t ∧ NormalText w t ∧ v.build = w.build ∧
    ¬ UpToZeros (upstreamStr v.upstream) (upstreamStr w.upstream) := by
  refine ⟨ver "1.0a3" 1, ver "1.0b1" 1, str "1.0.0.0-patch1", ?_, ?_, rfl, fun h => ?_⟩
  · rw [normalText_iff]; decide +kernel
  · rw [normalText_iff]; decide +kernel
  · have hne : upstreamStr (ver "1.0a3" 1).upstream ≠ upstreamStr (ver "1.0b1" 1).upstream := by decide +kernel
    exact hne (upToZeros_length h (by decide +kernel))

/-- C109: packages with different conflicts have the same entry. -/
theorem C109_violated_conflicts : ∃ (p q : Package Str (CStr Str) Str) (e : PhpEntry), Exports p e ∧ Exports q e ∧
    p.conflicts ≠ q.conflicts := by
  refine ⟨mkl, package "MKL" (ver "10.3" 1) [] [("numpy", ["*"])], 
    { name := str "MKL", version := str "10.3-1", versionNormalized := str "10.3.0.0-patch1", require := [] },
    entry_ok (by decide +kernel), entry_ok (by decide +kernel), by decide +kernel⟩

/-- C110: the parts of a request -/
theorem example_parts : requestToPhpParts (U := Str) ⟨Modifiers.empty,
    [⟨some ⟨.install, str "numpy", [.geq (ver "1.0" 0), .lt (ver "2.0" 3)]⟩, .install⟩, ⟨some ⟨.plain, str "MKL", [.any]⟩, .remove⟩]⟩ =
    .ok [(str "install", str "numpy", str ">= 1.0.0.0, < 2.0.0.0-patch3"), (str "remove", str "MKL", str "*")] := by decide +kernel

/-- C110: what is refused -/
example : requestToPhpParts (U := Str) ⟨Modifiers.empty, [⟨some ⟨.install, str "numpy", [.equal (ver "1.0" 0)]⟩, .install⟩]⟩ =
    .error .valueError := by decide +kernel
example : requestToPhpParts (U := Str) ⟨Modifiers.empty, [⟨some ⟨.install, str "numpy", [.any]⟩, .hardUpdate⟩]⟩ = .error .keyError := by
  decide +kernel
example : requestToPhpParts (U := Str) ⟨Modifiers.empty, [⟨none, .upgrade⟩]⟩ = .error .attributeError := by decide +kernel

def scenario (remotes : List (Repository Str (CStr Str) Str)) : ExportScenario (CStr Str) Str :=
  { remotes := remotes
    installed := Repository.ofList [mkl]
    request := ⟨Modifiers.empty, [⟨some ⟨.install, str "numpy", [.any]⟩, .install⟩]⟩ }

/-- C111: a scenario that can be exported -/
example : ∃ tv, (scenarioToPhp (scenario [Repository.ofList [numpy, mkl]]) (str "remote") (str "installed") []).2 = .ok tv := by
  refine ⟨⟨str "remote", str "installed", [(str "install", str "numpy", str "*")]⟩, ?_⟩
  decide +kernel

/-- C111: an export that fails has destroyed the file that was there. -/
theorem C111_violated_failure : ∃ (sc : ExportScenario (CStr Str) Str) (files : Files) (es : List PhpEntry) (e : ExportErr),
    dget files (str "remote") = some (some es) ∧ (scenarioToPhp sc (str "remote") (str "installed") files).2 = .error e ∧
    dget (scenarioToPhp sc (str "remote") (str "installed") files).1 (str "remote") = some none := by
  refine ⟨scenario [Repository.ofList [scipy]], [(str "remote", some [])], [], .notImplemented, rfl, ?_, ?_⟩ <;> decide +kernel

/-- C111: the packages of the other remote repositories are not exported. -/
theorem C111_violated_remotes : ∃ (sc : ExportScenario (CStr Str) Str) (files : Files) (tv : TemplateVariables),
    scenarioToPhp sc (str "remote") (str "installed") [] = (files, .ok tv) ∧
    ∃ r ∈ sc.remotes, ∃ p ∈ r.iter, ∀ f es, dget files f = some (some es) → ∀ x ∈ es, x.name ≠ p.name := by
  refine ⟨scenario [Repository.ofList [mkl], Repository.ofList [numpy]],
    (scenarioToPhp (scenario [Repository.ofList [mkl], Repository.ofList [numpy]]) (str "remote") (str "installed") []).1,
    ⟨str "remote", str "installed", [(str "install", str "numpy", str "*")]⟩, Prod.ext (Eq.refl _) ?_, Repository.ofList [numpy], ?_,
    numpy, ?_, ?_⟩
  · decide +kernel
  · exact List.mem_cons_of_mem _ (List.mem_singleton_self _)
  · rw [(C30_iteration [numpy]).1.mem_iff]
    exact List.mem_singleton_self _
  · intro f es h x hx
    have hall : ∀ fe ∈ (scenarioToPhp (scenario [Repository.ofList [mkl], Repository.ofList [numpy]]) (str "remote") (str "installed")
        []).1, ∀ es ∈ fe.2, ∀ x ∈ es, x.name ≠ numpy.name := by decide +kernel
    exact hall _ (mem_of_dget h) es rfl x hx

end ComposerExample
end Verif.Props
