import Verif.Pkg.RepositoryIterLemmas
import Verif.Props.Repositories
import Verif.Pkg.Example
import Mathlib.Data.List.Basic
import Mathlib.Data.List.Induction
/-
C127: iterating over a repository to which packages are added meanwhile.
-/
set_option linter.unusedSectionVars false
namespace Verif.Props
open Verif Verif.Pkg

variable {N S U : Type} [LinearOrder N] [DecidableEq S] [LinearOrder U]

/-- what an iterator would still yield if nothing was added any more -/
def stillToCome (r : Repository N S U) (c : Cursor N) : List (Package N S U) :=
  (match c.inner with
    | none => []
    | some (n, j) => (r.listOf n).drop j) ++ (r.names.drop c.pos).flatMap r.listOf

theorem drop_insert_sublist {α : Type} (a b : List α) (x : α) (j : Nat) :
    ((a ++ b).drop j).Sublist ((a ++ x :: b).drop j) := by
  rw [List.drop_append, List.drop_append]
  refine List.Sublist.append (List.Sublist.refl _) ?_
  cases h : j - a.length with
  | zero => simp
  | succ k => simpa using List.drop_sublist_drop_left b (Nat.le_succ k)

theorem flatMap_sublist {α β : Type} {f g : α → List β} (h : ∀ x, (f x).Sublist (g x)) {l l' : List α} (hl : l.Sublist l') :
    (l.flatMap f).Sublist (l'.flatMap g) := by
  induction hl with
  | slnil => simp
  | @cons l l' x _ ih =>
    rw [List.flatMap_cons]
    exact ih.trans (List.sublist_append_right _ _)
  | @cons_cons l l' x _ ih =>
    rw [List.flatMap_cons, List.flatMap_cons]
    exact (h x).append ih

theorem stillToCome_add {r : Repository N S U} {l : List (Package N S U)} (h : r.Inv l) (p : Package N S U) (c : Cursor N) :
    (stillToCome r c).Sublist (stillToCome (r.addPackage p) c) := by
  obtain ⟨h1, ⟨a, b, e1, e2, -, -⟩, h3⟩ := Repository.listOf_add r h p
  have hl : ∀ n j, ((r.listOf n).drop j).Sublist (((r.addPackage p).listOf n).drop j) := by
    intro n j
    by_cases hn : n = p.name
    · subst hn
      rw [e1, e2]
      exact drop_insert_sublist a b p j
    · rw [h1 n hn]
  unfold stillToCome
  refine List.Sublist.append ?_ (flatMap_sublist (fun n => by simpa using hl n 0) ?_)
  · split
    · exact List.Sublist.refl _
    · exact hl _ _
  · rcases h3 with ⟨-, e⟩ | ⟨-, a, b, e1, e2, -, -⟩
    · rw [e]
    · rw [e1, e2]
      exact drop_insert_sublist a b p.name c.pos

/-- the next package is the first one of those still to come -/
theorem next_spec {r : Repository N S U} {l : List (Package N S U)} (h : r.Inv l) {c : Cursor N} (hd : c.done = false) :
    (∃ p c', c.next r = (some p, c') ∧ c'.done = false ∧ stillToCome r c = p :: stillToCome r c') ∨
    (∃ c', c.next r = (none, c') ∧ c'.done = true ∧ stillToCome r c = []) := by
  obtain ⟨pos, inner, done⟩ := c
  simp only at hd
  subst hd
  have outer : ∀ inner : Option (N × Nat), (match inner with | none => [] | some (n, j) => (r.listOf n).drop j) = [] →
      (∃ p c', nextName r (r.names.length + 1) pos = (some p, c') ∧ c'.done = false ∧
        stillToCome r ⟨pos, inner, false⟩ = p :: stillToCome r c') ∨
      (∃ c', nextName r (r.names.length + 1) pos = (none, c') ∧ c'.done = true ∧ stillToCome r ⟨pos, inner, false⟩ = []) := by
    intro inner hi
    rw [nextName_eq h]
    unfold stillToCome
    simp only [hi]
    cases hn : r.names[pos]? with
    | none =>
      refine Or.inr ⟨_, rfl, rfl, ?_⟩
      rw [List.getElem?_eq_none_iff] at hn
      simp [List.drop_eq_nil_of_le hn]
    | some n =>
      obtain ⟨p, t, hl⟩ := first_listOf h hn
      refine Or.inl ⟨p, ⟨pos + 1, some (n, 1), false⟩, by simp [hl], rfl, ?_⟩
      obtain ⟨hlt, hn'⟩ := List.getElem?_eq_some_iff.1 hn
      rw [List.drop_eq_getElem_cons hlt, hn', List.flatMap_cons, hl]
      simp [hl]
  unfold Cursor.next
  simp only [Bool.false_eq_true, if_false]
  cases inner with
  | none => exact outer none rfl
  | some nj =>
    obtain ⟨n, j⟩ := nj
    simp only
    cases hj : (r.listOf n)[j]? with
    | none =>
      refine outer (some (n, j)) ?_
      rw [List.getElem?_eq_none_iff] at hj
      exact List.drop_eq_nil_of_le hj
    | some p =>
      refine Or.inl ⟨p, _, rfl, rfl, ?_⟩
      obtain ⟨hlt, hp⟩ := List.getElem?_eq_some_iff.1 hj
      unfold stillToCome
      simp only
      rw [List.drop_eq_getElem_cons hlt, hp]
      rfl

theorem run_inv (l : List (Package N S U)) (hs : List (Happening N S U)) :
    ∃ added, (Iteration.run (Repository.ofList l) hs).repo.Inv (l ++ added) := by
  have key : ∀ (hs : List (Happening N S U)) (s : Iteration N S U) (k : List (Package N S U)), s.repo.Inv (l ++ k) →
      ∃ added, (hs.foldl Iteration.step s).repo.Inv (l ++ added) := by
    intro hs
    induction hs with
    | nil => intro s k h; exact ⟨k, h⟩
    | cons e hs ih =>
      intro s k h
      cases e with
      | add p => exact ih _ (k ++ [p]) (by rw [← List.append_assoc]; exact h.add p)
      | next =>
        refine ih _ k ?_
        simp only [Iteration.step]
        split <;> exact h
  exact key hs _ [] (by simpa using Repository.inv_ofList l)

theorem run_snoc (r : Repository N S U) (hs : List (Happening N S U)) (e : Happening N S U) :
    Iteration.run r (hs ++ [e]) = (Iteration.run r hs).step e := by
  simp [Iteration.run, List.foldl_append]

/-- C127: nothing is missed. Whatever is added while a repository is iterated, when the iterator is exhausted it has
yielded each package that was there at the beginning, as often as it was there. -/
theorem C127_nothing_is_missed (l : List (Package N S U)) (hs : List (Happening N S U))
    (hd : (Iteration.run (Repository.ofList l) hs).cursor.done = true) (P : Package N S U → Bool) :
    l.countP P ≤ (Iteration.run (Repository.ofList l) hs).yielded.countP P := by
  have key : ∀ hs : List (Happening N S U),
      ((Iteration.run (Repository.ofList l) hs).cursor.done = true →
        l.countP P ≤ (Iteration.run (Repository.ofList l) hs).yielded.countP P) ∧
      ((Iteration.run (Repository.ofList l) hs).cursor.done = false →
        l.countP P ≤ (Iteration.run (Repository.ofList l) hs).yielded.countP P +
          (stillToCome (Iteration.run (Repository.ofList l) hs).repo (Iteration.run (Repository.ofList l) hs).cursor).countP P) := by
    intro hs
    induction hs using List.reverseRecOn with
    | nil =>
      refine ⟨fun h => (by cases h), fun _ => ?_⟩
      have : stillToCome (Repository.ofList l) Cursor.start = (Repository.ofList l).iter := by
        simp [stillToCome, Cursor.start, Repository.iter]
        rfl
      change _ ≤ 0 + (stillToCome (Repository.ofList l) Cursor.start).countP P
      rw [this, (C30_iteration l).1.countP_eq, Nat.zero_add]
    | append_singleton hs e ih =>
      rw [run_snoc]
      obtain ⟨added, hinv⟩ := run_inv l hs
      generalize Iteration.run (Repository.ofList l) hs = s at ih hinv
      cases e with
      | add p =>
        refine ⟨ih.1, fun h => Nat.le_trans (ih.2 h) ?_⟩
        exact Nat.add_le_add_left (stillToCome_add hinv p s.cursor).countP_le _
      | next =>
        simp only [Iteration.step]
        cases hdone : s.cursor.done with
        | true =>
          have : s.cursor.next s.repo = (none, s.cursor) := by simp [Cursor.next, hdone]
          rw [this]
          exact ⟨fun _ => ih.1 hdone, fun h => by simp only at h; rw [hdone] at h; cases h⟩
        | false =>
          have hb := ih.2 hdone
          rcases next_spec hinv hdone with ⟨p, c', e1, e2, e3⟩ | ⟨c', e1, e2, e3⟩
          · rw [e1]
            simp only [e2]
            refine ⟨fun h => (by cases h), fun _ => ?_⟩
            rw [e3] at hb
            rw [List.countP_append]
            simp only [List.countP_cons, List.countP_nil] at hb ⊢
            omega
          · rw [e1]
            simp only [e2]
            refine ⟨fun _ => ?_, fun h => by cases h⟩
            rw [e3] at hb
            simpa using hb
  exact (key hs).1 hd

/-- C127: only packages that are in the repository are yielded. -/
theorem C127_only_members (l : List (Package N S U)) (hs : List (Happening N S U)) :
    ∀ p ∈ (Iteration.run (Repository.ofList l) hs).yielded, p ∈ (Iteration.run (Repository.ofList l) hs).repo.iter := by
  induction hs using List.reverseRecOn with
  | nil => simp [Iteration.run]
  | append_singleton hs e ih =>
    rw [run_snoc]
    obtain ⟨added, hinv⟩ := run_inv l hs
    generalize Iteration.run (Repository.ofList l) hs = s at ih hinv
    have hmem : ∀ (r : Repository N S U) k, r.Inv k → ∀ p, p ∈ r.iter ↔ p ∈ k := by
      intro r k hk p
      rw [hk.iter]; simp
    cases e with
    | add p =>
      intro q hq
      have := ih q hq
      rw [hmem _ _ hinv] at this
      exact (hmem _ _ (hinv.add p) q).2 (List.mem_append_left _ this)
    | next =>
      simp only [Iteration.step]
      cases hdone : s.cursor.done with
      | true =>
        have : s.cursor.next s.repo = (none, s.cursor) := by simp [Cursor.next, hdone]
        rw [this]
        exact ih
      | false =>
        rcases next_spec hinv hdone with ⟨p, c', e1, e2, e3⟩ | ⟨c', e1, e2, e3⟩
        · rw [e1]
          intro q hq
          rcases List.mem_append.1 hq with hq | hq
          · exact ih q hq
          · simp only [List.mem_singleton] at hq
            subst hq
            have hq : q ∈ stillToCome s.repo s.cursor := by rw [e3]; simp
            simp only
            rw [hmem _ _ hinv]
            unfold stillToCome at hq
            rcases List.mem_append.1 hq with hq | hq
            · split at hq
              · simp at hq
              · exact ((Repository.mem_listOf hinv _ _).1 (List.mem_of_mem_drop hq)).1
            · obtain ⟨n, -, hn⟩ := List.mem_flatMap.1 hq
              exact ((Repository.mem_listOf hinv _ _).1 hn).1
        · rw [e1]
          exact ih

/-- Packages are only added behind the point that the iteration has come to, and before it is over: an added package has a
greater name than the last package that was yielded, or the same name and a version that is not smaller. -/
def InStep : Iteration N S U → List (Happening N S U) → Prop
  | _, [] => True
  | s, .add p :: hs => s.cursor.done = false ∧ (∀ q ∈ s.yielded.getLast?, NameVersionLE q p) ∧ InStep (s.step (.add p)) hs
  | s, .next :: hs => InStep (s.step .next) hs

/-- the position of the iterator: what was yielded is what comes before it -/
def AtPlace (s : Iteration N S U) : Prop :=
  (s.cursor.done = true → s.yielded = s.repo.iter) ∧
  (s.cursor.done = false → (s.cursor.inner = none ∧ s.cursor.pos = 0 ∧ s.yielded = []) ∨
    ∃ n j a b, s.cursor.inner = some (n, j) ∧ s.repo.names = a ++ n :: b ∧ s.cursor.pos = a.length + 1 ∧ 0 < j ∧
      j ≤ (s.repo.listOf n).length ∧ s.yielded = a.flatMap s.repo.listOf ++ (s.repo.listOf n).take j)

theorem AtPlace.prefix {s : Iteration N S U} (h : AtPlace s) : s.yielded <+: s.repo.iter := by
  cases hd : s.cursor.done with
  | true => rw [h.1 hd]; exact List.prefix_rfl
  | false =>
    rcases h.2 hd with ⟨-, -, e⟩ | ⟨n, j, a, b, -, e2, -, -, -, e⟩
    · rw [e]; exact List.nil_prefix
    · have : s.repo.iter = s.repo.names.flatMap s.repo.listOf := rfl
      rw [this, e2, e, List.flatMap_append, List.flatMap_cons]
      exact (List.prefix_append_right_inj _).2 ((List.take_prefix _ _).trans (List.prefix_append _ _))

theorem AtPlace.next {s : Iteration N S U} {l : List (Package N S U)} (hinv : s.repo.Inv l) (h : AtPlace s) :
    AtPlace (s.step .next) := by
  obtain ⟨r, ⟨pos, inner, done⟩, y⟩ := s
  simp only at hinv
  cases done with
  | true =>
    have : (Iteration.mk r ⟨pos, inner, true⟩ y).step .next = ⟨r, ⟨pos, inner, true⟩, y⟩ := by
      simp [Iteration.step, Cursor.next]
    rw [this]; exact h
  | false =>
    rcases h.2 rfl with ⟨e1, e2, e3⟩ | ⟨n, j, a, b, e1, e2, e3, e4, e5, e6⟩
    · simp only at e1 e2 e3
      subst e1 e2 e3
      cases hn : r.names[0]? with
      | none =>
        have : (Iteration.mk r ⟨0, none, false⟩ []).step .next = ⟨r, ⟨0, none, true⟩, []⟩ := by
          simp only [Iteration.step, Cursor.next, Bool.false_eq_true, if_false, nextName_eq hinv, hn]
        rw [this]
        refine ⟨fun _ => ?_, fun h => by cases h⟩
        have : r.names = [] := by simpa using hn
        simp [Repository.iter, this]
      | some n =>
        obtain ⟨p, t, hl⟩ := first_listOf hinv hn
        have : (Iteration.mk r ⟨0, none, false⟩ []).step .next = ⟨r, ⟨1, some (n, 1), false⟩, [p]⟩ := by
          simp only [Iteration.step, Cursor.next, Bool.false_eq_true, if_false, nextName_eq hinv, hn, hl]
          rfl
        rw [this]
        refine ⟨fun h => (by cases h), fun _ => Or.inr ?_⟩
        cases hns : r.names with
        | nil => rw [hns] at hn; simp at hn
        | cons m b =>
          rw [hns] at hn
          simp only [List.getElem?_cons_zero, Option.some.injEq] at hn
          subst hn
          exact ⟨m, 1, [], b, rfl, rfl, rfl, by omega, by simp [hl], by simp [hl]⟩
    · simp only at e1 e2 e3 e5 e6
      subst e1 e3 e6
      by_cases hj : j < (r.listOf n).length
      · have : (Iteration.mk r ⟨a.length + 1, some (n, j), false⟩ (a.flatMap r.listOf ++ (r.listOf n).take j)).step .next =
            ⟨r, ⟨a.length + 1, some (n, j + 1), false⟩, a.flatMap r.listOf ++ (r.listOf n).take (j + 1)⟩ := by
          simp only [Iteration.step, Cursor.next, Bool.false_eq_true, if_false, List.getElem?_eq_getElem hj]
          rw [List.append_assoc, ← List.take_succ_eq_append_getElem hj]
        rw [this]
        exact ⟨fun h => (by cases h), fun _ => Or.inr ⟨n, j + 1, a, b, rfl, e2, rfl, by omega, by simp only; omega, rfl⟩⟩
      · have hj' : j = (r.listOf n).length := by omega
        have hnone : (r.listOf n)[j]? = none := by simp [hj']
        have htake : (r.listOf n).take j = r.listOf n := by rw [hj']; exact List.take_length
        cases b with
        | nil =>
          have hnn : r.names[a.length + 1]? = none := by rw [e2]; simp
          have : (Iteration.mk r ⟨a.length + 1, some (n, j), false⟩ (a.flatMap r.listOf ++ (r.listOf n).take j)).step .next =
              ⟨r, ⟨a.length + 1, none, true⟩, a.flatMap r.listOf ++ (r.listOf n).take j⟩ := by
            simp only [Iteration.step, Cursor.next, Bool.false_eq_true, if_false, hnone, nextName_eq hinv, hnn]
          rw [this]
          refine ⟨fun _ => ?_, fun h => by cases h⟩
          have : r.iter = r.names.flatMap r.listOf := rfl
          rw [this, e2, htake]
          simp
        | cons m b =>
          have hnn : r.names[a.length + 1]? = some m := by
            rw [e2, List.getElem?_append_right (by omega)]
            simp
          obtain ⟨p, t, hl⟩ := first_listOf hinv hnn
          have : (Iteration.mk r ⟨a.length + 1, some (n, j), false⟩ (a.flatMap r.listOf ++ (r.listOf n).take j)).step .next =
              ⟨r, ⟨a.length + 2, some (m, 1), false⟩, a.flatMap r.listOf ++ (r.listOf n).take j ++ [p]⟩ := by
            simp only [Iteration.step, Cursor.next, Bool.false_eq_true, if_false, hnone, nextName_eq hinv, hnn, hl]
            rfl
          rw [this]
          refine ⟨fun h => (by cases h), fun _ => Or.inr ⟨m, 1, a ++ [n], b, rfl, ?_, ?_, by omega, ?_, ?_⟩⟩
          · simp [e2]
          · simp
          · simp [hl]
          · simp [hl, htake]

theorem AtPlace.add {s : Iteration N S U} {l : List (Package N S U)} (hinv : s.repo.Inv l) (h : AtPlace s)
    (hd : s.cursor.done = false) {p : Package N S U} (hp : ∀ q ∈ s.yielded.getLast?, NameVersionLE q p) :
    AtPlace (s.step (.add p)) := by
  refine ⟨fun h => ?_, fun _ => ?_⟩
  · simp only [Iteration.step] at h
    rw [hd] at h; cases h
  rcases h.2 hd with ⟨e1, e2, e3⟩ | ⟨n, j, a, b, e1, e2, e3, e4, e5, e6⟩
  · exact Or.inl ⟨e1, e2, e3⟩
  refine Or.inr ?_
  obtain ⟨r, c, y⟩ := s
  simp only at hinv hd e1 e2 e3 e5 e6
  simp only [Iteration.step]
  obtain ⟨h1, ⟨la, lb, f1, f2, f3, f4⟩, h3⟩ := Repository.listOf_add r hinv p
  have hsorted := hinv.sorted
  rw [e2, List.pairwise_append, List.pairwise_cons] at hsorted
  -- the last package that was yielded
  have hjl : j - 1 < (r.listOf n).length := by omega
  have hlast : y.getLast? = some ((r.listOf n)[j - 1]) := by
    rw [e6, List.getLast?_append]
    have : ((r.listOf n).take j).getLast? = some ((r.listOf n)[j - 1]) := by
      rw [List.getLast?_take]
      rw [if_neg (by omega), List.getElem?_eq_getElem hjl]
      rfl
    rw [this]; rfl
  have hlastn : ((r.listOf n)[j - 1]).name = n := ((Repository.mem_listOf hinv n _).1 (List.getElem_mem hjl)).2
  have hle := hp _ (by rw [hlast]; rfl)
  unfold NameVersionLE at hle
  rw [hlastn] at hle
  have hnp : n ≤ p.name := by
    rcases hle with k | ⟨k, -⟩
    · exact le_of_lt k
    · exact le_of_eq k
  have ha : ∀ m ∈ a, (r.addPackage p).listOf m = r.listOf m := by
    intro m hm
    refine h1 m ?_
    intro e
    exact absurd (lt_of_lt_of_le (hsorted.2.2 m hm n (by simp)) hnp) (by rw [e]; exact lt_irrefl _)
  have haf : a.flatMap (r.addPackage p).listOf = a.flatMap r.listOf := List.flatMap_congr ha
  have hnames : ∃ b', (r.addPackage p).names = a ++ n :: b' := by
    rcases h3 with ⟨-, e⟩ | ⟨hnew, a', b', g1, g2, g3, g4⟩
    · exact ⟨b, by rw [e, e2]⟩
    · -- the new name goes behind n
      rw [e2] at g1
      have hlen : a.length < a'.length := by
        apply Classical.byContradiction
        intro hlt
        have hb' : n ∈ b' := by
          have h' : (a' ++ b')[a.length]? = some n := by rw [← g1]; simp
          rw [List.getElem?_append_right (by omega)] at h'
          exact List.mem_of_getElem? h'
        exact absurd (g4 n hb') (not_lt.2 hnp)
      have : ∃ d, a' = a ++ n :: d := by
        have h' : a' = (a ++ n :: b).take a'.length := by rw [g1]; simp
        rw [List.take_append, List.take_of_length_le (by omega)] at h'
        obtain ⟨k, hk⟩ : ∃ k, a'.length - a.length = k + 1 := ⟨a'.length - a.length - 1, by omega⟩
        rw [hk, List.take_succ_cons] at h'
        exact ⟨_, h'⟩
      obtain ⟨d, rfl⟩ := this
      exact ⟨d ++ p.name :: b', by rw [g2]; simp⟩
  obtain ⟨b', hb'⟩ := hnames
  have hlist : (r.listOf n).length ≤ ((r.addPackage p).listOf n).length ∧
      ((r.addPackage p).listOf n).take j = (r.listOf n).take j := by
    by_cases hn : n = p.name
    · subst hn
      have hv : ((r.listOf p.name)[j - 1]).version ≤ p.version := by
        rcases hle with k | ⟨-, k⟩
        · exact absurd k (lt_irrefl _)
        · exact k
      have hjla : j ≤ la.length := by
        apply Classical.byContradiction
        intro hlt
        have hmem : (r.listOf p.name)[j - 1] ∈ lb := by
          have h' : (la ++ lb)[j - 1]? = some ((r.listOf p.name)[j - 1]) := by
            rw [← f1, List.getElem?_eq_getElem hjl]
          rw [List.getElem?_append_right (by omega)] at h'
          exact List.mem_of_getElem? h'
        exact absurd (f4 _ hmem) (not_lt.2 hv)
      rw [f1, f2, List.take_append_of_le_length hjla, List.take_append_of_le_length hjla]
      simp
    · rw [h1 n hn]; simp
  exact ⟨n, j, a, b', e1, hb', e3, e4, Nat.le_trans e5 hlist.1, by rw [hlist.2, haf]; exact e6⟩

theorem inStep_atPlace (l : List (Package N S U)) : ∀ (hs : List (Happening N S U)) (s : Iteration N S U)
    (k : List (Package N S U)), s.repo.Inv (l ++ k) → AtPlace s → InStep s hs → AtPlace (hs.foldl Iteration.step s)
  | [], _, _, _, h, _ => h
  | .add p :: hs, s, k, hinv, h, hi =>
    inStep_atPlace l hs _ (k ++ [p]) (by rw [← List.append_assoc]; exact hinv.add p) (h.add hinv hi.1 hi.2.1) hi.2.2
  | .next :: hs, s, k, hinv, h, hi =>
    inStep_atPlace l hs _ k (by simp only [Iteration.step]; split <;> exact hinv) (h.next hinv) hi

/-- C127, the part that holds: if packages are only added behind the point that the iteration has come to, it yields what
an iteration of the repository as it is in the end yields: each package once, sorted; and a beginning of that before. -/
theorem C127_in_step_partial (l : List (Package N S U)) (hs : List (Happening N S U))
    (h : InStep ⟨Repository.ofList l, Cursor.start, []⟩ hs) :
    (Iteration.run (Repository.ofList l) hs).yielded <+: (Iteration.run (Repository.ofList l) hs).repo.iter ∧
    ((Iteration.run (Repository.ofList l) hs).cursor.done = true →
      (Iteration.run (Repository.ofList l) hs).yielded = (Iteration.run (Repository.ofList l) hs).repo.iter) := by
  have := inStep_atPlace l hs ⟨Repository.ofList l, Cursor.start, []⟩ [] (by simpa using Repository.inv_ofList l)
    ⟨fun h => (by cases h), fun _ => Or.inl ⟨rfl, rfl, rfl⟩⟩ h
  exact ⟨this.prefix, this.1⟩

/-- C127: if nothing is added, asking for one package more than there are exhausts the iterator, which has yielded what
C30 says. -/
theorem C127_undisturbed (l : List (Package N S U)) :
    (Iteration.run (Repository.ofList l) (List.replicate (l.length + 1) .next)).cursor.done = true ∧
    (Iteration.run (Repository.ofList l) (List.replicate (l.length + 1) .next)).yielded = (Repository.ofList l).iter := by
  have hin : ∀ n (s : Iteration N S U), InStep s (List.replicate n .next) := by
    intro n
    induction n with
    | zero => intro s; trivial
    | succ n ih => intro s; exact ih _
  have hrepo : ∀ n, (Iteration.run (Repository.ofList l) (List.replicate n .next)).repo = Repository.ofList l := by
    intro n
    induction n with
    | zero => rfl
    | succ n ih =>
      rw [List.replicate_succ', run_snoc]
      simp only [Iteration.step]
      split <;> exact ih
  have hcount : ∀ n, (Iteration.run (Repository.ofList l) (List.replicate n .next)).cursor.done = false →
      (Iteration.run (Repository.ofList l) (List.replicate n .next)).yielded.length = n := by
    intro n
    induction n with
    | zero => intro _; rfl
    | succ n ih =>
      rw [List.replicate_succ', run_snoc]
      obtain ⟨added, hinv⟩ := run_inv l (List.replicate n .next)
      generalize Iteration.run (Repository.ofList l) (List.replicate n .next) = s at ih hinv
      simp only [Iteration.step]
      cases hdone : s.cursor.done with
      | true =>
        have : s.cursor.next s.repo = (none, s.cursor) := by simp [Cursor.next, hdone]
        rw [this]
        intro h
        simp only at h
        rw [hdone] at h; cases h
      | false =>
        rcases next_spec hinv hdone with ⟨p, c', e1, e2, e3⟩ | ⟨c', e1, e2, e3⟩
        · rw [e1]
          intro _
          simp [ih hdone]
        · rw [e1]
          intro h
          simp only at h
          rw [e2] at h; cases h
  obtain ⟨h1, h2⟩ := C127_in_step_partial l (List.replicate (l.length + 1) .next) (hin _ _)
  have hd : (Iteration.run (Repository.ofList l) (List.replicate (l.length + 1) .next)).cursor.done = true := by
    apply Classical.byContradiction
    intro hn
    have h3 := hcount (l.length + 1) (by simpa using hn)
    have h4 := h1.length_le
    rw [h3, hrepo, (C30_iteration l).1.length_eq] at h4
    omega
  exact ⟨hd, by rw [h2 hd, hrepo]⟩

/-- C127: `repository.update(repository)` does not end unless the repository is empty: after any number of turns the loop
goes on, and the repository has grown by that number of packages. -/
theorem C127_update_with_itself_never_ends (l : List (Package N S U)) (hl : l ≠ []) (n : Nat) :
    ∃ s, updateWithItself (Repository.ofList l) n = some s ∧ s.repo.len = l.length + n := by
  have key : ∀ n, ∃ s k, updateWithItself (Repository.ofList l) n = some s ∧ s.repo.Inv k ∧ k.length = l.length + n ∧
      s.cursor.done = false ∧ stillToCome s.repo s.cursor ≠ [] ∧
      (s.cursor.inner = none → n = 0) ∧ ∀ m j, s.cursor.inner = some (m, j) → j < (s.repo.listOf m).length := by
    intro n
    induction n with
    | zero =>
      refine ⟨_, l, rfl, Repository.inv_ofList l, rfl, rfl, ?_, fun _ => rfl, fun m j h => by cases h⟩
      have : stillToCome (Repository.ofList l) Cursor.start = (Repository.ofList l).iter := by
        simp [stillToCome, Cursor.start, Repository.iter]
        rfl
      rw [this]
      intro e
      have := (C30_iteration l).1.length_eq
      rw [e] at this
      exact hl (List.length_eq_zero_iff.1 this.symm)
    | succ n ih =>
      obtain ⟨s, k, h1, hinv, hk, hd, hne, hin, hj⟩ := ih
      obtain ⟨r, ⟨pos, inner, done⟩, y⟩ := s
      simp only at hd hin hj hinv
      subst hd
      -- the package that is next, and its place in the list of its name
      have hnext : ∃ p pos' j, (Cursor.mk pos inner false).next r = (some p, ⟨pos', some (p.name, j + 1), false⟩) ∧
          j < (r.listOf p.name).length := by
        cases inner with
        | some mj =>
          obtain ⟨m, j⟩ := mj
          have hlt := hj m j rfl
          have hm : ((r.listOf m)[j]).name = m := ((Repository.mem_listOf hinv m _).1 (List.getElem_mem hlt)).2
          refine ⟨(r.listOf m)[j], pos, j, ?_, by rw [hm]; exact hlt⟩
          simp only [Cursor.next, Bool.false_eq_true, if_false, List.getElem?_eq_getElem hlt, hm]
        | none =>
          rcases next_spec hinv (c := ⟨pos, none, false⟩) rfl with ⟨p, c', e1, e2, e3⟩ | ⟨c', e1, e2, e3⟩
          · have e1' := e1
            simp only [Cursor.next, Bool.false_eq_true, if_false, nextName_eq hinv] at e1
            cases hn : r.names[pos]? with
            | none => rw [hn] at e1; cases e1
            | some m =>
              rw [hn] at e1
              obtain ⟨q, t, hl⟩ := first_listOf hinv hn
              simp only [hl, List.getElem?_cons_zero, Prod.mk.injEq, Option.some.injEq] at e1
              obtain ⟨rfl, rfl⟩ := e1
              have hm : q.name = m := ((Repository.mem_listOf hinv m q).1 (by rw [hl]; simp)).2
              refine ⟨q, pos + 1, 0, by rw [hm]; exact e1', by rw [hm, hl]; simp⟩
          · exact absurd e3 hne
      obtain ⟨p, pos', j, e1, hlt⟩ := hnext
      obtain ⟨-, ⟨a, b, f1, f2, -, -⟩, -⟩ := Repository.listOf_add r hinv p
      have hlen : j + 1 < ((r.addPackage p).listOf p.name).length := by
        rw [f2]; rw [f1] at hlt
        simp only [List.length_append, List.length_cons] at hlt ⊢
        omega
      refine ⟨⟨r.addPackage p, ⟨pos', some (p.name, j + 1), false⟩, y ++ [p]⟩, k ++ [p], ?_, hinv.add p, ?_, rfl, ?_, ?_, ?_⟩
      · simp only [updateWithItself, h1, e1]
      · simp [hk]; omega
      · unfold stillToCome
        simp only
        intro e
        have := (List.append_eq_nil_iff.1 e).1
        rw [List.drop_eq_nil_iff] at this
        omega
      · intro h; cases h
      · intro m j' h
        cases h
        exact hlen
  obtain ⟨s, k, h1, h2, h3, -⟩ := key n
  exact ⟨s, h1, by rw [h2.len, h3]⟩

/-- ... whereas `repository.update(list(repository))` ends, with each package twice as often. -/
theorem C127_update_with_copy (l : List (Package N S U)) (P : Package N S U → Bool) :
    ((Repository.ofList l).update (Repository.ofList l).iter).iter.countP P = 2 * l.countP P := by
  rw [(C30_iteration_after_update l (Repository.ofList l).iter).1.countP_eq, List.countP_append,
    (C30_iteration l).1.countP_eq]
  omega

/-! ### non-vacuity and violation -/
namespace IterationExample
open Verif.Pkg.Example

abbrev P := Package Nat Str Nat

/-- C127 fails when a package is added before the point that the iteration has come to: the package in hand is yielded
again. Here 2-1 is yielded twice although it is there once: first because 1-1 was added, then because 2-0 was added. -/
theorem C127_violated :
    (Iteration.run (Repository.ofList ([pkg 0 2 1, pkg 0 3 1] : List P)) [.next, .add (pkg 0 1 1), .next, .next, .next]).yielded =
      [pkg 0 2 1, pkg 0 2 1, pkg 0 3 1] ∧
    (Iteration.run (Repository.ofList ([pkg 0 2 1, pkg 0 3 1] : List P)) [.next, .add (pkg 0 2 0), .next, .next, .next]).yielded =
      [pkg 0 2 1, pkg 0 2 1, pkg 0 3 1] ∧
    (Iteration.run (Repository.ofList ([pkg 0 2 1, pkg 0 3 1] : List P)) [.next, .add (pkg 0 1 1), .next, .next, .next]).cursor.done =
      true := by decide +kernel

/-- packages that are added behind it are yielded, too -/
def behind : List (Happening Nat Str Nat) :=
  [.next, .add (pkg 0 2 1), .add (pkg 0 4 1), .next, .add (pkg 0 2 5), .next, .next, .next, .next]
example : (Iteration.run (Repository.ofList ([pkg 0 2 1, pkg 0 3 1] : List P)) behind).yielded =
      [pkg 0 2 1, pkg 0 2 1, pkg 0 2 5, pkg 0 3 1, pkg 0 4 1] ∧
    (Iteration.run (Repository.ofList ([pkg 0 2 1, pkg 0 3 1] : List P)) behind).cursor.done = true := by decide +kernel
instance (a b : P) : Decidable (NameVersionLE a b) := by unfold NameVersionLE; infer_instance
example : InStep ⟨Repository.ofList ([pkg 0 2 1, pkg 0 3 1] : List P), Cursor.start, []⟩ behind := by
  simp only [InStep, behind]
  decide +kernel
/-- the case of C127_nothing_is_missed with a package in front -/
example : ([pkg 0 2 1, pkg 0 3 1] : List P).countP (fun p => decide (p.name = 2)) ≤ (Iteration.run
    (Repository.ofList ([pkg 0 2 1, pkg 0 3 1] : List P)) [.next, .add (pkg 0 1 1), .next, .next, .next]).yielded.countP
      (fun p => decide (p.name = 2)) := C127_nothing_is_missed _ _ C127_violated.2.2 _
example : ((updateWithItself (Repository.ofList ([pkg 0 2 1, pkg 0 3 1] : List P)) 3).map (fun s => s.repo.iter)) =
    some [pkg 0 2 1, pkg 0 2 1, pkg 0 2 1, pkg 0 2 1, pkg 0 3 1] := by decide +kernel

end IterationExample
end Verif.Props
