import Verif.Solve.TransactionText
import Verif.Props.Solve
/-
C87: the printed form of a transaction says what it does.
-/
set_option linter.unusedSectionVars false
namespace Verif.Props
open Verif Verif.Pkg Verif.Graph Verif.Solve

variable {N S U : Type} [LinearOrder N] [DecidableEq S] [LinearOrder U] [Syntax S U]

/-! ### What is to be read off -/

/-- A package as a reader of the text knows it: the texts of its name and version, and its repository. -/
structure Seen where
  name : List Char
  version : List Char
  repo : Option (List Char)
deriving DecidableEq

/-- An operation as a reader knows it. -/
inductive SeenOp where
  | install (p : Seen)
  | remove (p : Seen)
  | update (old new : Seen)
deriving DecidableEq

def seen (T : Texts N U) (p : Package N S U) : Seen := ⟨T.name p.name, T.version p.version, p.repo.map T.name⟩

/-- as `seen`, without the repository -/
def seenSimple (T : Texts N U) (p : Package N S U) : Seen := ⟨T.name p.name, T.version p.version, none⟩

def seenOp (f : Package N S U → Seen) : Op N S U → SeenOp
  | .install p => .install (f p)
  | .remove p => .remove (f p)
  | .update p source => .update (f source) (f p)

/-- the packages an operation speaks about -/
def _root_.Verif.Solve.Op.packages : Op N S U → List (Package N S U)
  | .install p => [p]
  | .remove p => [p]
  | .update p source => [p, source]

/-- An ordinary package: its name and that of its repository contain no line feed, quote or blank, and its version is
printed as an upstream part, a dash and a build, with none of these characters, dashes or closing parentheses in the
parts. -/
structure Ordinary (T : Texts N U) (p : Package N S U) : Prop where
  name : ∀ c ∈ T.name p.name, c ≠ '\n' ∧ c ≠ '\'' ∧ c ≠ ' '
  repo : ∀ r, p.repo = some r → ∀ c ∈ T.name r, c ≠ '\n' ∧ c ≠ '\'' ∧ c ≠ ' '
  version : ∃ upstream build, T.version p.version = upstream ++ '-' :: build ∧
    ∀ c ∈ upstream ++ build, c ≠ '\n' ∧ c ≠ '\'' ∧ c ≠ ' ' ∧ c ≠ '-' ∧ c ≠ ')'

/-! ### Lists of characters -/

theorem split_at {α : Type} {c : α} : ∀ {a b x y : List α}, c ∉ a → c ∉ b → a ++ c :: x = b ++ c :: y → a = b ∧ x = y
  | [], [], _, _, _, _, h => by simpa using h
  | [], b :: bs, _, _, _, hb, h => by
    simp only [List.nil_append, List.cons_append, List.cons.injEq] at h
    exact absurd (by simp [h.1]) hb
  | a :: as, [], _, _, ha, _, h => by
    simp only [List.nil_append, List.cons_append, List.cons.injEq] at h
    exact absurd (by simp [h.1]) ha
  | a :: as, b :: bs, x, y, ha, hb, h => by
    simp only [List.cons_append, List.cons.injEq] at h
    obtain ⟨h1, h2⟩ := split_at (fun k => ha (by simp [k])) (fun k => hb (by simp [k])) h.2
    exact ⟨by rw [h.1, h1], h2⟩

/-- lines without line feeds can be told apart when they are put together, if each ends with a line feed -/
theorem lines_inj : ∀ {a b : List (List Char)}, (∀ l ∈ a, '\n' ∉ l) → (∀ l ∈ b, '\n' ∉ l) →
    a.flatMap (fun l => l ++ ['\n']) = b.flatMap (fun l => l ++ ['\n']) → a = b
  | [], [], _, _, _ => rfl
  | [], b :: bs, _, _, h => by simp at h
  | a :: as, [], _, _, h => by simp at h
  | a :: as, b :: bs, ha, hb, h => by
    simp only [List.flatMap_cons, List.append_assoc, List.singleton_append] at h
    obtain ⟨h1, h2⟩ := split_at (ha a (by simp)) (hb b (by simp)) h
    rw [h1, lines_inj (fun l hl => ha l (by simp [hl])) (fun l hl => hb l (by simp [hl])) h2]

/-- `'\n'.join(xs) + '\n'` -/
theorem joinWith_newline : ∀ {xs : List (List Char)}, xs ≠ [] →
    joinWith ['\n'] xs ++ ['\n'] = xs.flatMap (fun l => l ++ ['\n'])
  | [], h => absurd rfl h
  | [x], _ => by simp [joinWith]
  | x :: y :: ys, _ => by
    rw [joinWith, List.append_assoc, List.append_assoc, joinWith_newline (xs := y :: ys) (by simp)]
    simp

theorem joinWith_nonempty {xs : List (List Char)} (h : xs ≠ []) (hx : ∀ x ∈ xs, x ≠ []) : joinWith ['\n'] xs ≠ [] := by
  cases xs with
  | nil => exact absurd rfl h
  | cons x xs =>
    have := hx x (by simp)
    cases xs with
    | nil => simpa [joinWith]
    | cons y ys => simp [joinWith, this]

/-! ### packages -/

theorem nameVersion_inj {n n' u u' b b' : List Char} (hu : '-' ∉ u) (hu' : '-' ∉ u') (hb : '-' ∉ b) (hb' : '-' ∉ b')
    (h : n ++ '-' :: (u ++ '-' :: b) = n' ++ '-' :: (u' ++ '-' :: b')) : n = n' ∧ u ++ '-' :: b = u' ++ '-' :: b' := by
  have h := congrArg List.reverse h
  simp only [List.reverse_append, List.reverse_cons, List.append_assoc, List.cons_append, List.nil_append] at h
  obtain ⟨h1, h2⟩ := split_at (by simpa using hb) (by simpa using hb') h
  obtain ⟨h3, h4⟩ := split_at (by simpa using hu) (by simpa using hu') h2
  rw [List.reverse_inj] at h1 h3 h4
  exact ⟨h4, by rw [h1, h3]⟩

/-- A package as `Seen`: what `repr` prints of it, with the parts of the text. -/
theorem repr_parts (T : Texts N U) {p : Package N S U} (h : Ordinary T p) :
    ∃ s t u b, packageRepr T p = s ++ (T.name p.name ++ '-' :: (u ++ '-' :: b)) ++ '\'' :: t ∧
      T.version p.version = u ++ '-' :: b ∧ '-' ∉ u ∧ '-' ∉ b ∧
      '\'' ∉ T.name p.name ++ '-' :: (u ++ '-' :: b) ∧
      ((p.repo = none ∧ s = "PackageMetadata('".toList ∧ t = ")".toList) ∨
        ∃ r, p.repo = some r ∧ s = "RepositoryPackageMetadata('".toList ∧
          t = ", repo=Repository(<".toList ++ T.name r ++ ">))".toList) := by
  obtain ⟨u, b, hv, hc⟩ := h.version
  have hu : '-' ∉ u := fun k => (hc _ (List.mem_append_left _ k)).2.2.2.1 rfl
  have hb : '-' ∉ b := fun k => (hc _ (List.mem_append_right _ k)).2.2.2.1 rfl
  have hq : '\'' ∉ T.name p.name ++ '-' :: (u ++ '-' :: b) := by
    intro k
    simp only [List.mem_append, List.mem_cons] at k
    rcases k with k | k | k | k | k
    · exact (h.name _ k).2.1 rfl
    · revert k; decide
    · exact (hc _ (List.mem_append_left _ k)).2.1 rfl
    · revert k; decide
    · exact (hc _ (List.mem_append_right _ k)).2.1 rfl
  cases hr : p.repo with
  | none => exact ⟨_, _, u, b, by simp only [packageRepr, hr, hv], hv, hu, hb, hq, Or.inl ⟨rfl, rfl, rfl⟩⟩
  | some r => exact ⟨_, _, u, b, by simp only [packageRepr, hr, hv], hv, hu, hb, hq, Or.inr ⟨r, rfl, rfl, rfl⟩⟩

theorem repr_inj (T : Texts N U) {p q : Package N S U} (hp : Ordinary T p) (hq : Ordinary T q) :
    packageRepr T p = packageRepr T q ↔ seen T p = seen T q := by
  constructor
  · intro h
    obtain ⟨s, t, u, b, e, hv, hu, hb, hn, hr⟩ := repr_parts T hp
    obtain ⟨s', t', u', b', e', hv', hu', hb', hn', hr'⟩ := repr_parts T hq
    rw [e, e', List.append_assoc s, List.append_assoc s'] at h
    have key : s = s' → T.name p.name = T.name q.name ∧ T.version p.version = T.version q.version ∧ t = t' := by
      intro hs
      rw [hs, List.append_right_inj] at h
      obtain ⟨h1, h2⟩ := split_at hn hn' h
      obtain ⟨h3, h4⟩ := nameVersion_inj hu hu' hb hb' h1
      exact ⟨h3, by rw [hv, hv', h4], h2⟩
    rcases hr with ⟨r, hs, ht⟩ | ⟨r, hr, hs, ht⟩ <;> rcases hr' with ⟨r', hs', ht'⟩ | ⟨r', hr', hs', ht'⟩
    · obtain ⟨k1, k2, _⟩ := key (by rw [hs, hs'])
      simp [seen, r, r', k1, k2]
    · rw [hs, hs'] at h
      have := congrArg List.head? h
      simp at this
    · rw [hs, hs'] at h
      have := congrArg List.head? h
      simp at this
    · obtain ⟨k1, k2, k3⟩ := key (by rw [hs, hs'])
      rw [ht, ht', List.append_left_inj, List.append_right_inj] at k3
      simp [seen, hr, hr', k1, k2, k3]
  · intro h
    simp only [seen, Seen.mk.injEq] at h
    unfold packageRepr
    rw [h.1, h.2.1]
    have h3 := h.2.2
    cases hr : p.repo with
    | none =>
      cases hr' : q.repo with
      | none => rfl
      | some r' => simp [hr, hr'] at h3
    | some r =>
      cases hr' : q.repo with
      | none => simp [hr, hr'] at h3
      | some r' =>
        simp only [hr, hr', Option.map_some, Option.some.injEq] at h3
        simp only [h3]

theorem repr_newline (T : Texts N U) {p : Package N S U} (h : Ordinary T p) : '\n' ∉ packageRepr T p := by
  obtain ⟨u, b, hv, hc⟩ := h.version
  have hn : ∀ c ∈ T.name p.name ++ '-' :: T.version p.version, c ≠ '\n' := by
    intro c k
    rw [hv] at k
    simp only [List.mem_append, List.mem_cons] at k
    rcases k with k | rfl | k | rfl | k
    · exact (h.name _ k).1
    · decide
    · exact (hc _ (List.mem_append_left _ k)).1
    · decide
    · exact (hc _ (List.mem_append_right _ k)).1
  intro k
  unfold packageRepr at k
  cases hr : p.repo with
  | none =>
    simp only [hr] at k
    rcases List.mem_append.1 k with k | k
    · rcases List.mem_append.1 k with k | k
      · exact absurd k (by decide)
      · exact hn _ k rfl
    · exact absurd k (by decide)
  | some r =>
    simp only [hr] at k
    rcases List.mem_append.1 k with k | k
    · rcases List.mem_append.1 k with k | k
      · exact absurd k (by decide)
      · exact hn _ k rfl
    · rcases List.mem_cons.1 k with k | k
      · exact absurd k (by decide)
      · rcases List.mem_append.1 k with k | k
        · rcases List.mem_append.1 k with k | k
          · exact absurd k (by decide)
          · exact (h.repo r hr _ k).1 rfl
        · exact absurd k (by decide)

/-! ### `str(transaction)` -/

/-- the lines of an operation -/
def opLines (T : Texts N U) : Op N S U → List (List Char)
  | .install p => ["Installing:".toList, '\t' :: packageRepr T p]
  | .update p source => ["Updating:".toList, '\t' :: packageRepr T source, '\t' :: packageRepr T p]
  | .remove p => ["Removing".toList, '\t' :: packageRepr T p]

theorem opText_lines (T : Texts N U) (op : Op N S U) : opText T op ++ ['\n'] = (opLines T op).flatMap (fun l => l ++ ['\n']) := by
  cases op with
  | install p => rw [opText_install]; simp only [opLines, List.flatMap_cons, List.flatMap_nil, List.append_assoc, List.cons_append, List.nil_append, List.append_nil]
  | remove p => rw [opText_remove]; simp only [opLines, List.flatMap_cons, List.flatMap_nil, List.append_assoc, List.cons_append, List.nil_append, List.append_nil]
  | update p q => rw [opText_update]; simp only [opLines, List.flatMap_cons, List.flatMap_nil, List.append_assoc, List.cons_append, List.nil_append, List.append_nil]

theorem opLines_newline (T : Texts N U) {op : Op N S U} (h : ∀ p ∈ op.packages, Ordinary T p) :
    ∀ l ∈ opLines T op, '\n' ∉ l := by
  have key : ∀ p ∈ op.packages, '\n' ∉ '\t' :: packageRepr T p := by
    intro p hp k
    rcases List.mem_cons.1 k with k | k
    · exact absurd k (by decide)
    · exact repr_newline T (h p hp) k
  cases op with
  | install p =>
    intro l hl
    rcases List.mem_cons.1 hl with rfl | hl
    · decide
    · rw [List.mem_singleton.1 hl]; exact key p (by simp [Op.packages])
  | remove p =>
    intro l hl
    rcases List.mem_cons.1 hl with rfl | hl
    · decide
    · rw [List.mem_singleton.1 hl]; exact key p (by simp [Op.packages])
  | update p q =>
    intro l hl
    rcases List.mem_cons.1 hl with rfl | hl
    · decide
    · rcases List.mem_cons.1 hl with rfl | hl
      · exact key q (by simp [Op.packages])
      · rw [List.mem_singleton.1 hl]; exact key p (by simp [Op.packages])

theorem opsLines_inj (T : Texts N U) : ∀ {ops ops' : List (Op N S U)}, (∀ op ∈ ops, ∀ p ∈ op.packages, Ordinary T p) →
    (∀ op ∈ ops', ∀ p ∈ op.packages, Ordinary T p) → ops.flatMap (opLines T) = ops'.flatMap (opLines T) →
    ops.map (seenOp (seen T)) = ops'.map (seenOp (seen T))
  | [], [], _, _, _ => rfl
  | [], op :: ops, _, _, h => by cases op <;> simp [opLines] at h
  | op :: ops, [], _, _, h => by cases op <;> simp [opLines] at h
  | op :: ops, op' :: ops', ho, ho', h => by
    have ih := fun h => opsLines_inj T (ops := ops) (ops' := ops') (fun o k => ho o (by simp [k])) (fun o k => ho' o (by simp [k])) h
    have h1 := ho op (by simp)
    have h2 := ho' op' (by simp)
    have hh := congrArg List.head? h
    have d1 : "Installing:".toList ≠ "Updating:".toList := by decide
    have d2 : "Installing:".toList ≠ "Removing".toList := by decide
    have d3 : "Updating:".toList ≠ "Removing".toList := by decide
    cases op <;> cases op' <;>
      simp only [List.flatMap_cons, opLines, List.cons_append, List.head?_cons, List.nil_append, Option.some.injEq] at h hh
    · simp only [List.cons.injEq, true_and] at h
      rw [List.map_cons, List.map_cons, ih h.2, seenOp, seenOp,
        (repr_inj T (h1 _ (by simp [Op.packages])) (h2 _ (by simp [Op.packages]))).1 h.1]
    · exact absurd hh d2
    · exact absurd hh d1
    · exact absurd hh.symm d2
    · simp only [List.cons.injEq, true_and] at h
      rw [List.map_cons, List.map_cons, ih h.2, seenOp, seenOp,
        (repr_inj T (h1 _ (by simp [Op.packages])) (h2 _ (by simp [Op.packages]))).1 h.1]
    · exact absurd hh.symm d3
    · exact absurd hh.symm d1
    · exact absurd hh d3
    · simp only [List.cons.injEq, true_and] at h
      rw [List.map_cons, List.map_cons, ih h.2.2, seenOp, seenOp,
        (repr_inj T (h1 _ (by simp [Op.packages])) (h2 _ (by simp [Op.packages]))).1 h.1,
        (repr_inj T (h1 _ (by simp [Op.packages])) (h2 _ (by simp [Op.packages]))).1 h.2.1]

theorem opText_congr (T : Texts N U) {op op' : Op N S U} (h1 : ∀ p ∈ op.packages, Ordinary T p)
    (h2 : ∀ p ∈ op'.packages, Ordinary T p) (h : seenOp (seen T) op = seenOp (seen T) op') : opText T op = opText T op' := by
  cases op <;> cases op' <;> simp only [seenOp, SeenOp.install.injEq, SeenOp.remove.injEq, SeenOp.update.injEq, reduceCtorEq] at h
  · simp only [opText_install, (repr_inj T (h1 _ (by simp [Op.packages])) (h2 _ (by simp [Op.packages]))).2 h]
  · simp only [opText_remove, (repr_inj T (h1 _ (by simp [Op.packages])) (h2 _ (by simp [Op.packages]))).2 h]
  · simp only [opText_update, (repr_inj T (h1 _ (by simp [Op.packages])) (h2 _ (by simp [Op.packages]))).2 h.1,
      (repr_inj T (h1 _ (by simp [Op.packages])) (h2 _ (by simp [Op.packages]))).2 h.2]

theorem map_congr_seen {α β γ : Type} {f : α → β} {g : α → γ} {P : α → Prop}
    (hfg : ∀ a b, P a → P b → g a = g b → f a = f b) : ∀ {l l' : List α}, (∀ a ∈ l, P a) → (∀ a ∈ l', P a) →
    l.map g = l'.map g → l.map f = l'.map f
  | [], [], _, _, _ => rfl
  | [], _ :: _, _, _, h => by simp at h
  | _ :: _, [], _, _, h => by simp at h
  | a :: as, b :: bs, ha, hb, h => by
    simp only [List.map_cons, List.cons.injEq] at h ⊢
    exact ⟨hfg a b (ha a (by simp)) (hb b (by simp)) h.1,
      map_congr_seen hfg (fun x k => ha x (by simp [k])) (fun x k => hb x (by simp [k])) h.2⟩

theorem flatMap_flatMap_lines {α : Type} (f : α → List Char) (g : α → List (List Char))
    (h : ∀ a, f a ++ ['\n'] = (g a).flatMap (fun l => l ++ ['\n'])) : ∀ (l : List α),
    (l.map f).flatMap (fun x => x ++ ['\n']) = (l.flatMap g).flatMap (fun x => x ++ ['\n'])
  | [] => rfl
  | a :: as => by
    rw [List.map_cons, List.flatMap_cons, List.flatMap_cons, List.flatMap_append, h a, flatMap_flatMap_lines f g h as]

theorem join_inj {α : Type} (f : α → List Char) (g : α → List (List Char))
    (h : ∀ a, f a ++ ['\n'] = (g a).flatMap (fun l => l ++ ['\n'])) (hf : ∀ a, f a ≠ []) {l l' : List α}
    (hl : ∀ a ∈ l, ∀ x ∈ g a, '\n' ∉ x) (hl' : ∀ a ∈ l', ∀ x ∈ g a, '\n' ∉ x)
    (e : joinWith ['\n'] (l.map f) = joinWith ['\n'] (l'.map f)) : l.flatMap g = l'.flatMap g := by
  have ne : ∀ {l : List α}, l ≠ [] → joinWith ['\n'] (l.map f) ≠ [] := by
    intro l hl
    refine joinWith_nonempty (by simpa using hl) ?_
    intro x hx
    obtain ⟨a, _, rfl⟩ := List.mem_map.1 hx
    exact hf a
  by_cases h1 : l = []
  · by_cases h2 : l' = []
    · rw [h1, h2]
    · rw [h1] at e
      exact absurd e.symm (ne h2)
  · by_cases h2 : l' = []
    · rw [h2] at e
      exact absurd e (ne h1)
    · refine lines_inj ?_ ?_ ?_
      · intro x hx
        obtain ⟨a, ha, hx⟩ := List.mem_flatMap.1 hx
        exact hl a ha x hx
      · intro x hx
        obtain ⟨a, ha, hx⟩ := List.mem_flatMap.1 hx
        exact hl' a ha x hx
      · rw [← flatMap_flatMap_lines f g h, ← flatMap_flatMap_lines f g h, ← joinWith_newline (by simpa using h1),
          ← joinWith_newline (by simpa using h2), e]

/-- **C87** (`Transaction.to_string(operations)`, which is `str(transaction)` for `transaction.operations` and may be used
for `transaction.pretty_operations`). The texts of two lists of operations on ordinary packages are the same exactly if the
lists agree in the kinds of the operations, in their order, and in the names, versions and repositories of their
packages. -/
theorem C87_text (T : Texts N U) {ops ops' : List (Op N S U)} (h : ∀ op ∈ ops, ∀ p ∈ op.packages, Ordinary T p)
    (h' : ∀ op ∈ ops', ∀ p ∈ op.packages, Ordinary T p) :
    opsToString T ops = opsToString T ops' ↔ ops.map (seenOp (seen T)) = ops'.map (seenOp (seen T)) := by
  constructor
  · intro e
    refine opsLines_inj T h h' ?_
    refine join_inj (opText T) (opLines T) (opText_lines T) ?_ (fun a ha => opLines_newline T (h a ha))
      (fun a ha => opLines_newline T (h' a ha)) e
    intro op
    cases op with
    | install p => rw [opText_install]; simp
    | remove p => rw [opText_remove]; simp
    | update p q => rw [opText_update]; simp
  · intro e
    unfold opsToString
    rw [map_congr_seen (f := opText T) (P := fun op => ∀ p ∈ op.packages, Ordinary T p)
      (fun a b ha hb => opText_congr T ha hb) h h' e]

/-! ### `to_simple_string` -/

theorem simplePackage_inj (T : Texts N U) {p q : Package N S U} (hp : Ordinary T p) (hq : Ordinary T q) {x y : List Char}
    (h : simplePackage T p ++ x = simplePackage T q ++ y) : seenSimple T p = seenSimple T q ∧ x = y := by
  have hn : ∀ {p : Package N S U}, Ordinary T p → ' ' ∉ T.name p.name := fun hp k => (hp.name _ k).2.2 rfl
  have hv : ∀ {p : Package N S U}, Ordinary T p → ')' ∉ T.version p.version := by
    intro p hp k
    obtain ⟨u, b, hv, hc⟩ := hp.version
    rw [hv] at k
    simp only [List.mem_append, List.mem_cons] at k
    rcases k with k | k | k
    · exact (hc _ (List.mem_append_left _ k)).2.2.2.2 rfl
    · revert k; decide
    · exact (hc _ (List.mem_append_right _ k)).2.2.2.2 rfl
  simp only [simplePackage, List.append_assoc, List.cons_append, List.nil_append] at h
  obtain ⟨h1, h2⟩ := split_at (hn hp) (hn hq) h
  simp only [List.cons.injEq, true_and] at h2
  obtain ⟨h3, h4⟩ := split_at (hv hp) (hv hq) h2
  exact ⟨by simp [seenSimple, h1, h3], h4⟩

theorem opSimple_inj (T : Texts N U) {op op' : Op N S U} (h1 : ∀ p ∈ op.packages, Ordinary T p)
    (h2 : ∀ p ∈ op'.packages, Ordinary T p) (h : opSimple T op = opSimple T op') :
    seenOp (seenSimple T) op = seenOp (seenSimple T) op' := by
  have pk : ∀ p ∈ op.packages, ∀ q ∈ op'.packages, ∀ x y : List Char, simplePackage T p ++ x = simplePackage T q ++ y →
      seenSimple T p = seenSimple T q ∧ x = y := fun p hp q hq x y e => simplePackage_inj T (h1 p hp) (h2 q hq) e
  have hh := congrArg List.head? h
  cases op with
  | install p =>
    cases op' with
    | install q =>
      rw [opSimple_install, opSimple_install, List.append_right_inj] at h
      rw [seenOp, seenOp, (pk p (by simp [Op.packages]) q (by simp [Op.packages]) [] [] (by simpa using h)).1]
    | remove q => rw [opSimple_install, opSimple_remove] at hh; simp at hh
    | update q r => rw [opSimple_install, opSimple_update] at hh; simp at hh
  | remove p =>
    cases op' with
    | remove q =>
      rw [opSimple_remove, opSimple_remove, List.append_right_inj] at h
      rw [seenOp, seenOp, (pk p (by simp [Op.packages]) q (by simp [Op.packages]) [] [] (by simpa using h)).1]
    | install q => rw [opSimple_remove, opSimple_install] at hh; simp at hh
    | update q r => rw [opSimple_remove, opSimple_update] at hh; simp at hh
  | update p s =>
    cases op' with
    | update q r =>
      rw [opSimple_update, opSimple_update, List.append_right_inj] at h
      obtain ⟨k1, k2⟩ := pk s (by simp [Op.packages]) r (by simp [Op.packages]) _ _ h
      rw [List.append_right_inj] at k2
      rw [seenOp, seenOp, k1, (pk p (by simp [Op.packages]) q (by simp [Op.packages]) [] [] (by simpa using k2)).1]
    | install q => rw [opSimple_update, opSimple_install] at hh; simp at hh
    | remove q => rw [opSimple_update, opSimple_remove] at hh; simp at hh

theorem opSimple_newline (T : Texts N U) {op : Op N S U} (h : ∀ p ∈ op.packages, Ordinary T p) : '\n' ∉ opSimple T op := by
  have key : ∀ p ∈ op.packages, '\n' ∉ simplePackage T p := by
    intro p hp k
    obtain ⟨u, b, hv, hc⟩ := (h p hp).version
    rw [simplePackage, hv] at k
    simp only [List.mem_append, List.mem_cons, List.not_mem_nil, or_false] at k
    rcases k with k | k | k | (k | k | k) | k
    · exact ((h p hp).name _ k).1 rfl
    · revert k; decide
    · revert k; decide
    · exact (hc _ (List.mem_append_left _ k)).1 rfl
    · revert k; decide
    · exact (hc _ (List.mem_append_right _ k)).1 rfl
    · revert k; decide
  cases op with
  | install p =>
    intro k
    rw [opSimple_install] at k
    rcases List.mem_append.1 k with k | k
    · exact absurd k (by decide)
    · exact key p (by simp [Op.packages]) k
  | remove p =>
    intro k
    rw [opSimple_remove] at k
    rcases List.mem_append.1 k with k | k
    · exact absurd k (by decide)
    · exact key p (by simp [Op.packages]) k
  | update p s =>
    intro k
    rw [opSimple_update] at k
    rcases List.mem_append.1 k with k | k
    · exact absurd k (by decide)
    · rcases List.mem_append.1 k with k | k
      · exact key s (by simp [Op.packages]) k
      · rcases List.mem_append.1 k with k | k
        · exact absurd k (by decide)
        · exact key p (by simp [Op.packages]) k

theorem opSimple_ne (T : Texts N U) (op : Op N S U) : opSimple T op ≠ [] := by
  cases op with
  | install p => rw [opSimple_install]; simp
  | remove p => rw [opSimple_remove]; simp
  | update p q => rw [opSimple_update]; simp

/-- **C87** (`to_simple_string`). The short texts of two transactions on ordinary packages are the same exactly if their
operations agree in their kinds, in their order, and in the names and versions of their packages. (Repositories are not
shown.) -/
theorem C87_simple_text (T : Texts N U) {t t' : Transaction N S U}
    (h : ∀ op ∈ t.operations, ∀ p ∈ op.packages, Ordinary T p)
    (h' : ∀ op ∈ t'.operations, ∀ p ∈ op.packages, Ordinary T p) :
    t.toSimpleString T = t'.toSimpleString T ↔
      t.operations.map (seenOp (seenSimple T)) = t'.operations.map (seenOp (seenSimple T)) := by
  constructor
  · intro e
    have := join_inj (opSimple T) (fun op => [opSimple T op]) (by simp) (opSimple_ne T)
      (l := t.operations) (l' := t'.operations) (by
        intro op ho x hx
        rw [List.mem_singleton.1 hx]; exact opSimple_newline T (h op ho)) (by
        intro op ho x hx
        rw [List.mem_singleton.1 hx]; exact opSimple_newline T (h' op ho)) e
    rw [← List.map_eq_flatMap, ← List.map_eq_flatMap] at this
    exact map_congr_seen (f := seenOp (seenSimple T)) (g := opSimple T) (P := fun op => ∀ p ∈ op.packages, Ordinary T p)
      (fun a b ha hb => opSimple_inj T ha hb) h h' this
  · intro e
    unfold Transaction.toSimpleString
    rw [map_congr_seen (f := opSimple T) (g := seenOp (seenSimple T)) (P := fun _ => True) ?_ (by simp) (by simp) e]
    intro a b _ _ k
    have hs : ∀ p q : Package N S U, seenSimple T p = seenSimple T q → simplePackage T p = simplePackage T q := by
      intro p q e
      simp only [seenSimple, Seen.mk.injEq, and_true] at e
      rw [simplePackage, simplePackage, e.1, e.2]
    cases a <;> cases b <;> simp only [seenOp, SeenOp.install.injEq, SeenOp.remove.injEq, SeenOp.update.injEq, reduceCtorEq] at k
    · simp only [opSimple_install, hs _ _ k]
    · simp only [opSimple_remove, hs _ _ k]
    · simp only [opSimple_update, hs _ _ k.1, hs _ _ k.2]

/-- **C87** (`str`) for transactions. -/
theorem C87_str (T : Texts N U) {t t' : Transaction N S U} (h : ∀ op ∈ t.operations, ∀ p ∈ op.packages, Ordinary T p)
    (h' : ∀ op ∈ t'.operations, ∀ p ∈ op.packages, Ordinary T p) :
    t.str T = t'.str T ↔ t.operations.map (seenOp (seen T)) = t'.operations.map (seenOp (seen T)) := C87_text T h h'

/-! ### Concrete cases -/

namespace TransactionTextExample
open Verif.Pkg.Example Verif.Solve.Example SolveExample

/-- names are p1, p2, ..., versions numbers and builds -/
def texts : Texts Nat Nat :=
  { name := fun n => 'p' :: Nat.toDigits 10 n
    version := fun w => Nat.toDigits 10 w.upstream ++ '-' :: Nat.toDigits 10 w.build
    requirement := fun r => 'p' :: Nat.toDigits 10 r.name }

theorem digits {n : Nat} {c : Char} (h : c ∈ Nat.toDigits 10 n) : c ≠ '\n' ∧ c ≠ '\'' ∧ c ≠ ' ' ∧ c ≠ '-' ∧ c ≠ ')' := by
  have hd : c.isDigit = true := Nat.isDigit_of_mem_toDigits (by decide) (by decide) h
  refine ⟨?_, ?_, ?_, ?_, ?_⟩ <;> rintro rfl <;> exact absurd hd (by decide)

/-- every package is ordinary -/
theorem ordinary (p : P) : Ordinary texts p := by
  have hn : ∀ n : Nat, ∀ c ∈ texts.name n, c ≠ '\n' ∧ c ≠ '\'' ∧ c ≠ ' ' := by
    intro n c hc
    rcases List.mem_cons.1 hc with rfl | hc
    · decide
    · exact ⟨(digits hc).1, (digits hc).2.1, (digits hc).2.2.1⟩
  refine ⟨hn _, fun r _ => hn r, Nat.toDigits 10 p.version.upstream, Nat.toDigits 10 p.version.build, rfl, ?_⟩
  intro c hc
  rcases List.mem_append.1 hc with hc | hc <;> exact digits hc

/-- what is read: the request of `SolveExample` prints as follows -/
theorem text : opsToString texts [.remove (pkg 9 4 1), .update (pkg 0 1 2) (pkg 9 1 1), .install (pkg 0 3 1)] =
    ("Removing\n\tRepositoryPackageMetadata('p4-1-0', repo=Repository(<p9>))\n" ++
     "Updating:\n\tRepositoryPackageMetadata('p1-1-0', repo=Repository(<p9>))\n" ++
     "\tRepositoryPackageMetadata('p1-2-0', repo=Repository(<p0>))\n" ++
     "Installing:\n\tRepositoryPackageMetadata('p3-1-0', repo=Repository(<p0>))").toList := by decide +kernel

theorem simpleText : Transaction.toSimpleString texts ⟨[.remove (pkg 9 4 1), .update (pkg 0 1 2) (pkg 9 1 1), .install (pkg 0 3 1)], []⟩ =
    "Removing p4 (1-0)\nUpdating p1 (1-0) to p1 (2-0)\nInstalling p3 (1-0)".toList := by decide +kernel

/-- C87 for a transaction that `solve` returns: any transaction with the same text has the same operations -/
example : ∃ t, (solver inst remote).solve insertionOrder (request [install (req 3), remove (req 4)]) = .ok t ∧
    ∀ t' : Transaction Nat Str Nat, t.str texts = t'.str texts →
      t'.operations.map (seenOp (seen texts)) = t.operations.map (seenOp (seen texts)) := by
  obtain ⟨t, ht, -⟩ := solved_ok example_install
  exact ⟨t, ht, fun t' h => ((C87_str texts (fun _ _ p _ => ordinary p) (fun _ _ p _ => ordinary p)).1 h).symm⟩

/-- The names must be ordinary: names are not checked by PackageMetadata, and a name with line feeds can look like two
operations. -/
def anyTexts : Texts (List Char) Nat :=
  { name := id
    version := fun w => Nat.toDigits 10 w.upstream ++ '-' :: Nat.toDigits 10 w.build
    requirement := fun r => r.name }

def oddPkg (n : String) : Package (List Char) Unit Nat := ⟨n.toList, v 1, [], [], [], none⟩

example : opsToString anyTexts [.install (oddPkg "a-1-0')\nInstalling:\n\tPackageMetadata('b")] =
    opsToString anyTexts [.install (oddPkg "a"), .install (oddPkg "b")] := by decide +kernel

end TransactionTextExample
end Verif.Props
