import Verif.Text.Definition
import Verif.Props.PackageText
import Verif.Props.Pools
import Verif.Props.Repositories
import Verif.Props.Functions
/-
C107: packages that are listed one per line.
-/
set_option linter.unusedSectionVars false
namespace Verif.Props
open Verif Verif.Pkg Verif.Text CharTable

section
variable [CharTable] {U : Type} [LinearOrder U] [VersionText U]

/-! ### Specification -/

/-- a line: it has neither line breaks nor white space at either end, and is not empty -/
structure ProperLine (l : Str) : Prop where
  ne : l ≠ []
  first : ∀ c t, l = c :: t → isSpace c = false
  last : ∀ c t, l.reverse = c :: t → isSpace c = false
  one : ∀ c ∈ l, c ∉ lineBreaks

/-- `Written s ls`: the text `s` consists of the lines `ls`, each of which is ended by a line break or by the end of the text, with
white space before and after the lines and blank lines between them -/
inductive Written : Str → List Str → Prop where
  | nil : Written [] []
  | gap {c s ls} : isSpace c = true ∨ c ∈ lineBreaks → Written s ls → Written (c :: s) ls
  | line {l w c s ls} : ProperLine l → (∀ x ∈ w, isSpace x = true ∧ x ∉ lineBreaks) → c ∈ lineBreaks → Written s ls →
      Written (l ++ w ++ c :: s) (l :: ls)
  | last {l w} : ProperLine l → (∀ x ∈ w, isSpace x = true ∧ x ∉ lineBreaks) → Written (l ++ w) [l]

/-! ### Proofs -/

/-- the content of a line -/
def keep (x : Str) : List Str := if strip x = [] then [] else [strip x]

/-- the contents of all lines -/
def contents (cur s : Str) : List Str := ((splitLines cur s).filter (fun line => decide (strip line ≠ []))).map strip

theorem keep_eq (x : Str) (l : List Str) :
    ((x :: l).filter (fun line => decide (strip line ≠ []))).map strip =
      keep x ++ (l.filter (fun line => decide (strip line ≠ []))).map strip := by
  unfold keep
  by_cases h : strip x = [] <;> simp [h]

theorem keep_nil : keep [] = [] := rfl

theorem contents_nil (cur : Str) : contents cur [] = keep cur.reverse := by
  unfold contents splitLines
  by_cases h : cur = []
  · subst h; rfl
  · rw [if_neg h, keep_eq]
    simp

theorem contents_break {c : Char} (hc : c ∈ lineBreaks) (cur s : Str) : contents cur (c :: s) = keep cur.reverse ++ contents [] s := by
  unfold contents
  rw [splitLines.eq_def]
  split
  · next h => cases h
  · next cur' s' h =>
    simp only [List.cons.injEq] at h
    obtain ⟨rfl, rfl⟩ := h
    rw [keep_eq]
    congr 1
  · next h' h =>
    simp only [List.cons.injEq] at h
    obtain ⟨rfl, rfl⟩ := h
    rw [if_pos hc, keep_eq]

theorem contents_char {c : Char} (hc : c ∉ lineBreaks) (cur s : Str) : contents cur (c :: s) = contents (c :: cur) s := by
  unfold contents
  rw [splitLines.eq_def]
  split
  · next h => cases h
  · next h =>
    simp only [List.cons.injEq] at h
    obtain ⟨rfl, rfl⟩ := h
    exact absurd (by decide) hc
  · next h' h =>
    simp only [List.cons.injEq] at h
    obtain ⟨rfl, rfl⟩ := h
    rw [if_neg hc]

theorem contents_chars : ∀ (l cur s : Str), (∀ c ∈ l, c ∉ lineBreaks) → contents cur (l ++ s) = contents (l.reverse ++ cur) s
  | [], _, _, _ => rfl
  | c :: l, cur, s, h => by
    rw [List.cons_append, contents_char (h c (by simp)), contents_chars l _ s (fun x hx => h x (by simp [hx]))]
    simp

theorem keep_space {x : Str} (h : ∀ c ∈ x, isSpace c = true) : keep x = [] := by
  unfold keep
  rw [strip_spaces h, if_pos rfl]

theorem keep_line {l x w : Str} (hl : ProperLine l) (hx : ∀ c ∈ x, isSpace c = true) (hw : ∀ c ∈ w, isSpace c = true) :
    keep (x ++ l ++ w) = [l] := by
  have h1 : ∃ c t, l = c :: t ∧ isSpace c = false := by
    cases l with
    | nil => exact absurd rfl hl.ne
    | cons c t => exact ⟨c, t, rfl, hl.first c t rfl⟩
  have h2 : ∃ c t, l.reverse = c :: t ∧ isSpace c = false := by
    cases h : l.reverse with
    | nil => exact absurd (by simpa using h) hl.ne
    | cons c t => exact ⟨c, t, rfl, hl.last c t h⟩
  unfold keep
  rw [strip_around hx hw h1 h2, if_neg hl.ne]

/-- the lines that are read are those that are written -/
theorem Written.contents {s : Str} {ls : List Str} (h : Written s ls) :
    ∀ cur, (∀ c ∈ cur, isSpace c = true) → contents cur s = ls := by
  induction h with
  | nil =>
    intro cur hc
    rw [contents_nil, keep_space (by simpa using hc)]
  | @gap c s ls hs _ ih =>
    intro cur hc
    by_cases hb : c ∈ lineBreaks
    · rw [contents_break hb, keep_space (by simpa using hc)]
      exact ih [] (by simp)
    · rw [contents_char hb]
      refine ih _ ?_
      intro x hx
      rcases List.mem_cons.1 hx with rfl | hx
      · exact hs.resolve_right hb
      · exact hc x hx
  | @line l w c s ls hl hw hb _ ih =>
    intro cur hc
    rw [contents_chars (l ++ w) cur _ (by
      intro x hx
      rcases List.mem_append.1 hx with hx | hx
      · exact hl.one x hx
      · exact (hw x hx).2), contents_break hb, ih [] (by simp)]
    have := keep_line (x := cur.reverse) hl (by simpa using hc) (fun x hx => (hw x hx).1)
    simp only [List.reverse_append, List.reverse_reverse, ← List.append_assoc] at this ⊢
    rw [this]
    rfl
  | @last l w hl hw =>
    intro cur hc
    have e := contents_chars (l ++ w) cur [] (by
      intro x hx
      rcases List.mem_append.1 hx with hx | hx
      · exact hl.one x hx
      · exact (hw x hx).2)
    rw [List.append_nil] at e
    rw [e, contents_nil]
    have := keep_line (x := cur.reverse) hl (by simpa using hc) (fun x hx => (hw x hx).1)
    simp only [List.reverse_append, List.reverse_reverse, ← List.append_assoc] at this ⊢
    rw [this]

theorem Written.gaps {w s : Str} {ls : List Str} (hw : ∀ c ∈ w, isSpace c = true ∨ c ∈ lineBreaks) (h : Written s ls) :
    Written (w ++ s) ls := by
  induction w with
  | nil => exact h
  | cons c w ih => exact .gap (hw c (by simp)) (ih (fun x hx => hw x (by simp [hx])))

/-- a line without breaks is white space, or a proper line between white space -/
theorem line_cases (x : Str) (hx : ∀ c ∈ x, c ∉ lineBreaks) :
    ((∀ c ∈ x, isSpace c = true) ∧ keep x = []) ∨
    ∃ lead l trail, x = lead ++ l ++ trail ∧ (∀ c ∈ lead, isSpace c = true) ∧ (∀ c ∈ trail, isSpace c = true ∧ c ∉ lineBreaks) ∧
      ProperLine l ∧ keep x = [l] := by
  by_cases h : strip x = []
  · exact Or.inl ⟨strip_nil_iff.1 h, by unfold keep; rw [if_pos h]⟩
  · obtain ⟨lead, trail, e, h1, h2⟩ := strip_spec x
    have hs : strip (strip x) = strip x := strip_strip x
    refine Or.inr ⟨lead, strip x, trail, e, h1, fun c hc => ⟨h2 c hc, hx c (by rw [e]; simp [hc])⟩, ⟨h, ?_, ?_, ?_⟩, ?_⟩
    · exact strip_first hs
    · exact strip_last hs
    · exact fun c hc => hx c (by rw [e]; simp [hc])
    · unfold keep
      rw [if_neg h]

/-- every text consists of lines -/
theorem written_contents : ∀ (s cur : Str), (∀ c ∈ cur, c ∉ lineBreaks) → Written (cur.reverse ++ s) (contents cur s)
  | [], cur, hc => by
    rw [contents_nil, List.append_nil]
    rcases line_cases cur.reverse (by simpa using hc) with ⟨h1, h2⟩ | ⟨lead, l, trail, e, h1, h2, h3, h4⟩
    · rw [h2]
      have := Written.gaps (w := cur.reverse) (fun c hc => Or.inl (h1 c hc)) .nil
      simpa using this
    · rw [h4, e, List.append_assoc]
      exact Written.gaps (fun c hc => Or.inl (h1 c hc)) (.last h3 h2)
  | c :: s, cur, hc => by
    by_cases hb : c ∈ lineBreaks
    · rw [contents_break hb]
      have ih := written_contents s [] (by simp)
      rw [List.reverse_nil, List.nil_append] at ih
      rcases line_cases cur.reverse (by simpa using hc) with ⟨h1, h2⟩ | ⟨lead, l, trail, e, h1, h2, h3, h4⟩
      · rw [h2]
        exact Written.gaps (fun c hc => Or.inl (h1 c hc)) (.gap (Or.inr hb) ih)
      · rw [h4, e, List.append_assoc, List.append_assoc]
        refine Written.gaps (fun c hc => Or.inl (h1 c hc)) ?_
        rw [← List.append_assoc]
        exact .line h3 h2 hb ih
    · rw [contents_char hb]
      have ih := written_contents s (c :: cur) (by
        intro x hx
        rcases List.mem_cons.1 hx with rfl | hx
        · exact hb
        · exact hc x hx)
      simpa using ih

theorem mapE_comp {α β γ ε : Type} (f : β → Except ε γ) (g : α → β) : ∀ l : List α, mapE (fun x => f (g x)) l = mapE f (l.map g)
  | [] => rfl
  | x :: l => by
    simp only [mapE, List.map_cons, mapE_comp f g l]

theorem mapE_ok_iff {α β ε : Type} (f : α → Except ε β) : ∀ (l : List α) (r : List β),
    mapE f l = .ok r ↔ List.Forall₂ (fun x y => f x = .ok y) l r
  | [], r => by
    simp only [mapE, Except.ok.injEq]
    exact ⟨fun h => h ▸ .nil, fun h => by cases h; rfl⟩
  | x :: l, r => by
    rw [mapE_cons_ok]
    constructor
    · rintro ⟨y, ys, h1, h2, rfl⟩
      exact .cons h1 ((mapE_ok_iff f l ys).1 h2)
    · intro h
      cases h with
      | cons h1 h2 => exact ⟨_, _, h1, (mapE_ok_iff f l _).2 h2, rfl⟩

theorem mapE_error_mem {α β ε : Type} (f : α → Except ε β) : ∀ (l : List α) (e : ε), mapE f l = .error e → ∃ x ∈ l, f x = .error e
  | [], e, h => by simp [mapE] at h
  | x :: l, e, h => by
    simp only [mapE] at h
    cases hx : f x with
    | error e' =>
      rw [hx] at h
      cases h
      exact ⟨x, by simp, hx⟩
    | ok y =>
      rw [hx] at h
      simp only at h
      cases hl : mapE f l with
      | error e' =>
        rw [hl] at h
        cases h
        obtain ⟨z, hz, hz'⟩ := mapE_error_mem f l _ hl
        exact ⟨z, by simp [hz], hz'⟩
      | ok ys => rw [hl] at h; cases h

theorem definition_eq (s : Str) : packagesFromDefinition (U := U) s = mapE parseToPackage (contents [] s) := by
  unfold packagesFromDefinition contents
  exact mapE_comp parseToPackage strip _

/-! ### C107 -/

/-- C107: every text consists of lines, in exactly one way. -/
theorem C107_lines (s : Str) : ∃ ls, Written s ls ∧ ∀ ls', Written s ls' → ls' = ls := by
  refine ⟨contents [] s, by simpa using written_contents s [] (by simp), fun ls' h => ?_⟩
  exact (h.contents [] (by simp)).symm

/-- C107: the packages are those of the lines, in order: `packages_from_definition` returns them if every line is one. -/
theorem C107_packages (s : Str) (ps : List (Package Str (CStr U) U)) : packagesFromDefinition s = .ok ps ↔
    ∃ ls, Written s ls ∧ List.Forall₂ (fun l p => parseToPackage l = .ok p) ls ps := by
  rw [definition_eq, mapE_ok_iff]
  constructor
  · exact fun h => ⟨_, by simpa using written_contents s [] (by simp), h⟩
  · rintro ⟨ls, h, h'⟩
    rw [h.contents [] (by simp)]
    exact h'

/-- C107: otherwise it raises ValueError. -/
theorem C107_refuses (s : Str) (e : PErr) : packagesFromDefinition (U := U) s = .error e ↔
    e = .valueError ∧ ∃ ls, Written s ls ∧ ∃ l ∈ ls, parseToPackage (U := U) l = .error .valueError := by
  rw [definition_eq]
  have hw : Written s (contents [] s) := by simpa using written_contents s [] (by simp)
  constructor
  · intro h
    obtain ⟨l, hl, h'⟩ := mapE_error_mem _ _ _ h
    have := C69_only_value_error l h'
    subst this
    exact ⟨rfl, _, hw, l, hl, h'⟩
  · rintro ⟨rfl, ls, h1, l, h2, h3⟩
    rw [h1.contents [] (by simp)]
    cases hr : mapE (parseToPackage (U := U)) ls with
    | error e =>
      obtain ⟨l', hl', h'⟩ := mapE_error_mem _ _ _ hr
      rw [C69_only_value_error l' h']
    | ok ps =>
      rw [mapE_ok_iff] at hr
      obtain ⟨p, -, hp⟩ : ∃ p ∈ ps, parseToPackage l = .ok p := by
        clear h1
        induction hr with
        | nil => simp at h2
        | @cons a b la lb h5 h6 ih =>
          rcases List.mem_cons.1 h2 with rfl | h2
          · exact ⟨b, by simp, h5⟩
          · obtain ⟨p, hp, hp'⟩ := ih h2
            exact ⟨p, by simp [hp], hp'⟩
      rw [h3] at hp
      cases hp

/-- C107: packages in the form that the parser makes, printed one per line, in whatever layout, are read back. -/
theorem C107_round_trip (ps : List (Package Str (CStr U) U)) (h : ∀ p ∈ ps, ValidName p.name ∧ Printable p.version ∧
      Writable p.installRequires ∧ Writable p.conflicts ∧ Writable p.declaredProvides ∧
      Normal p.installRequires ∧ Normal p.conflicts ∧ Normal p.declaredProvides ∧
      (∀ t ∈ p.declaredProvides, t.1 ≠ p.name) ∧ p.repo = none) {s : Str} (hs : Written s (ps.map packageToPretty)) :
    packagesFromDefinition s = .ok ps := by
  rw [C107_packages]
  refine ⟨_, hs, ?_⟩
  rw [List.forall₂_map_left_iff, List.forall₂_same]
  intro p hp
  obtain ⟨h1, h2, h3, h4, h5, h6, h7, h8, h9, h10⟩ := h p hp
  exact C68_identity_partial p h1 h2 h3 h4 h5 h6 h7 h8 h9 h10

/-- C107: the repository that `pool_and_repository_from_packages` returns consists of the packages of the lines, and the pool finds
exactly those of them that meet a requirement. -/
theorem C107_pool_and_repository {s : Str} {pool : Pool Str (CStr U) U} {repo : Repository Str (CStr U) U}
    (h : poolAndRepository s = .ok (pool, repo)) :
    ∃ ls ps, Written s ls ∧ List.Forall₂ (fun l p => parseToPackage l = .ok p) ls ps ∧ repo.iter.Perm ps ∧
      repo.iter.Pairwise NameVersionLE ∧
      ∀ r b res, pool.whatProvides r b = .ok res → ∀ p, p ∈ res ↔ p ∈ ps ∧ Provides p r.name ∧ ReqAccepts r p.version := by
  unfold poolAndRepository at h
  cases hp : packagesFromDefinition (U := U) s with
  | error e => rw [hp] at h; cases h
  | ok ps =>
    rw [hp] at h
    simp only at h
    obtain ⟨ls, h1, h2⟩ := (C107_packages s ps).1 hp
    cases ha : Pool.addRepositories [Repository.ofList ps] (Pool.empty none) with
    | mk pool' e =>
      rw [ha] at h
      cases e with
      | some e => cases h
      | none =>
        cases h
        obtain ⟨h3, h4⟩ := C30_iteration ps
        refine ⟨ls, ps, h1, h2, h3, h4, ?_⟩
        intro r b res hr p
        have hm : pool.modifiers = none := by
          have := addRepositories_modifiers [Repository.ofList ps] (Pool.empty none)
          rw [ha] at this
          exact this
        have he : ({ pool with modifiers := none } : Pool Str (CStr U) U) = pool := by rw [← hm]
        rw [C34_what_provides_exactly ha none (b := b) (r := r) (res := res) (by rw [he]; convert hr)]
        have hl : ∀ r', Looked none b r r' ↔ r' = r := by
          intro r'
          unfold Looked
          exact Iff.rfl
        simp only [hl, List.mem_singleton, exists_eq_left, h3.mem_iff]

end

/-! ### concrete cases -/
namespace DefinitionExample
open Verif.Text.Example

instance {U : Type} : DecidableEq (CStr U) := fun a b =>
  if h : a.text = b.text then .isTrue (by cases a; cases b; simp_all) else .isFalse (fun e => h (by rw [e]))

/-- a package without constraints -/
def plain (name : String) (v : Version Nat) : Package Str (CStr Nat) Nat :=
  { name := str name
    version := v
    installRequires := []
    conflicts := []
    declaredProvides := []
    repo := none }

/-- with blank lines, indentation, line feeds and carriage returns -/
def layout : Str := str "\n  MKL 10-1\r\n\r\n\tnumpy 18-2  \n   \n"

theorem proper {l : Str} (h : l ≠ [] ∧ (∀ c ∈ l.head?, isSpace c = false) ∧ (∀ c ∈ l.reverse.head?, isSpace c = false) ∧
    ∀ c ∈ l, c ∉ lineBreaks) : ProperLine l :=
  ⟨h.1, fun c t e => h.2.1 c (by rw [e]; rfl), fun c t e => h.2.2.1 c (by rw [e]; rfl), h.2.2.2⟩

theorem layout_written : Written layout [str "MKL 10-1", str "numpy 18-2"] := by
  have h1 : ProperLine (str "MKL 10-1") := proper (by decide +kernel)
  have h2 : ProperLine (str "numpy 18-2") := proper (by decide +kernel)
  have e : layout = str "\n  " ++ (str "MKL 10-1" ++ [] ++ '\r' :: (str "\n\r\n\t" ++ (str "numpy 18-2" ++ str "  " ++
      '\n' :: (str "   \n" ++ [])))) := by decide +kernel
  rw [e]
  refine Written.gaps (by decide +kernel) (.line h1 (by decide +kernel) (by decide +kernel) ?_)
  refine Written.gaps (by decide +kernel) (.line h2 (by decide +kernel) (by decide +kernel) ?_)
  exact Written.gaps (by decide +kernel) .nil

/-- C107: the packages are read; two of them are printed on the lines of `layout` -/
example : packagesFromDefinition layout = .ok [plain "MKL" ⟨10, 1⟩, plain "numpy" ⟨18, 2⟩] := by
  refine C107_round_trip _ ?_ layout_written
  intro p hp
  have hn : Normal ([] : List (CTuple Str (CStr Nat))) := ⟨List.Pairwise.nil, by simp⟩
  have hw : Writable ([] : List (CTuple Str (CStr Nat))) := by intro t ht; simp at ht
  simp only [List.mem_cons, List.not_mem_nil, or_false] at hp
  rcases hp with rfl | rfl
  · exact ⟨.word ⟨by decide +kernel, by decide +kernel⟩, printable _, hw, hw, hw, hn, hn, hn, by simp [plain], rfl⟩
  · exact ⟨.word ⟨by decide +kernel, by decide +kernel⟩, printable _, hw, hw, hw, hn, hn, hn, by simp [plain], rfl⟩

/-- C107: a line that is not a package -/
example : packagesFromDefinition (U := Nat) (str "MKL 10-1\nnumpy\n") = .error .valueError := by decide +kernel

/-- C107: the repository and the pool of `layout` -/
example : (match poolAndRepository (U := Nat) layout with
    | .ok (pool, repo) => (repo.iter.map Package.name, (pool.whatProvides (Requirement.ofName .install (str "MKL")) true).toOption.map
        (fun l => l.map Package.version))
    | .error _ => ([], none)) = ([str "MKL", str "numpy"], some [⟨10, 1⟩]) := by decide +kernel

end DefinitionExample
end Verif.Props
