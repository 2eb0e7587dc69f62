import Verif.Scenario.Model
/-
What a scenario file says, in terms of its document.
-/
set_option linter.unusedSectionVars false
namespace Verif.Scn
open Verif Verif.Pkg Verif.Text Verif.Solve

variable [CharTable] {U : Type} [LinearOrder U] [VersionText U] [LinearOrder Str]

/-- the word for an operation in a scenario file -/
def jobWord : JobKind → Str
  | .install => wInstall
  | .remove => wRemove
  | .softUpdate => wSoftUpdate
  | .hardUpdate => wHardUpdate
  | .upgrade => wUpgrade

/-- the text is that of the requirement -/
def Denotes (text : Str) (r : Requirement Str U) : Prop :=
  letI := asciiTable; fromString .plain text = .ok ⟨r.cls, some r.name, r.constraints⟩

/-- the entry asks for the job -/
def EntryJob (e : Entry) (j : Job Str U) : Prop :=
  j.kind ≠ .upgrade ∧ e.operation = some (jobWord j.kind) ∧
    ∃ text r, e.requirement = some text ∧ Denotes text r ∧ j.requirement = some r

/-- the entry says `operation: update_all` -/
def Entry.updateAll (e : Entry) : Bool := decide (e.operation = some wUpdateAll)

/-- the entries that ask for a job -/
def Data.jobEntries (d : Data) : List Entry := d.request.filter (fun e => !e.updateAll)

/-- the name `n` is requested by one of the entries -/
def Asked (U : Type) [LinearOrder U] [VersionText U] (d : Data) (n : Str) : Prop :=
  ∃ e ∈ d.jobEntries, ∃ text, e.requirement = some text ∧ ∃ r : Requirement Str U, Denotes text r ∧ r.name = n

/-- the job that keeps a marked package -/
def MarkJob (d : Data) (mark : Str) (j : Job Str U) : Prop :=
  j.kind = (if d.request.any Entry.updateAll then .hardUpdate else .install) ∧ ∃ r, Denotes mark r ∧ j.requirement = some r

/-- the package with this text, as it stands in a repository -/
def InRepo (info : Str) (p q : Package Str (CStr U) U) : Prop :=
  q.name = p.name ∧ q.version = p.version ∧ q.installRequires = p.installRequires ∧ q.conflicts = p.conflicts ∧
    q.declaredProvides = p.declaredProvides ∧ q.repo = some info

/-- `texts` contains a text of a package with this full name, and the last such text is that of `p` -/
def LastNamed (texts : List Str) (full : Str) (p : Package Str (CStr U) U) : Prop :=
  ∃ before text after, texts = before ++ text :: after ∧ parseToPackage text = .ok p ∧ fullName p = full ∧
    ∀ t ∈ after, ∀ p', parseToPackage (U := U) t = .ok p' → fullName p' ≠ full

/-- the entry describes the operation -/
def EntryOp (t : TEntry) (o : Solve.Op Str (CStr U) U) : Prop :=
  match o with
  | .install p => t.kind = some wInstall ∧ ∃ s, t.package = some s ∧ parseToPackage s = .ok p
  | .remove p => t.kind = some wRemove ∧ ∃ s, t.package = some s ∧ parseToPackage s = .ok p
  | .update p p' => t.kind = some wUpdate ∧ (∃ s, t.target = some s ∧ parseToPackage s = .ok p) ∧
      ∃ s, t.source = some s ∧ parseToPackage s = .ok p'

end Verif.Scn
