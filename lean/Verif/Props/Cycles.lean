import Verif.Solve.CycleText
import Verif.Props.Transactions
import Verif.Solve.DimacsLemmas
import Verif.Solve.Example
import Mathlib.Data.List.Nodup
/-
Property C118: what the ValueError for cyclic dependencies says.
-/
set_option linter.unusedSectionVars false
namespace Verif.Props
open Verif Verif.Pkg Verif.Graph Verif.Solve Verif.Dimacs Relation

/-- `x` is on a cycle, or depends on something that is, through any number of steps -/
def LeadsToCycle {α : Type} (D : α → α → Prop) (x : α) : Prop := ∃ y, ReflTransGen D x y ∧ TransGen D y y

section
variable {α : Type} [DecidableEq α]

theorem LeadsToCycle.step {D : α → α → Prop} {x : α} (h : LeadsToCycle D x) : ∃ y, D x y ∧ LeadsToCycle D y := by
  obtain ⟨y, h1, h2⟩ := h
  rcases ReflTransGen.cases_head h1 with rfl | ⟨z, h3, h4⟩
  · obtain ⟨z, h3, h4⟩ := TransGen.head'_iff.1 h2
    exact ⟨z, h3, x, h4, h2⟩
  · exact ⟨z, h3, y, h4, h2⟩

theorem LeadsToCycle.of_step {D : α → α → Prop} {x y : α} (h : D x y) (hy : LeadsToCycle D y) : LeadsToCycle D x := by
  obtain ⟨z, h1, h2⟩ := hy
  exact ⟨z, .head h h1, h2⟩

theorem topoLoop_rest (fuel : Nat) (data : Adj α) {rest : Adj α} (h : (topoLoop fuel data).2 = .cyclic rest) :
    rest = topoRest data (topoLoop fuel data).1.flatten ∧ ∀ kv ∈ rest, kv.2 ≠ [] := by
  induction fuel generalizing data with
  | zero => simp [topoLoop] at h
  | succ fuel ih =>
    unfold topoLoop at h ⊢
    simp only at h ⊢
    split at h
    · rename_i ho
      simp only [ho, if_true]
      simp only at h
      split at h
      · cases h
      · cases h
        refine ⟨?_, ?_⟩
        · simp [topoRest]
        · rintro ⟨k, v⟩ hkv hv
          simp only at hv
          subst hv
          have := mem_topoReady.2 hkv
          rw [ho] at this
          simp at this
    · rename_i ho
      simp only [ho, if_false]
      obtain ⟨h1, h2⟩ := ih _ h
      refine ⟨?_, h2⟩
      rw [h1]
      unfold topoRest
      simp only [List.filter_map, List.map_map, List.filter_filter, List.flatten_cons, List.mem_append, not_or]
      congr 1
      · funext kv
        simp [List.filter_filter, Bool.and_comm]
      · congr 1
        funext kv
        simp [Bool.and_comm]

section
variable {g : Adj α} (hnd : (g.map Prod.fst).Nodup)
include hnd

theorem yielded_not_leads : ∀ (n : Nat) pre gr post, pre.length = n → (toposort g).1 = pre ++ gr :: post → ∀ x ∈ gr,
    ¬ LeadsToCycle (Dep g) x := by
  intro n
  induction n using Nat.strongRecOn with
  | ind n ih =>
    intro pre gr post hn e x hx hl
    obtain ⟨y, hd, hy⟩ := hl.step
    obtain ⟨gr', h1, h2⟩ := (C17_groups_are_layers hnd).2.2.2 pre gr post e x hx y hd
    obtain ⟨u, w, rfl⟩ := List.append_of_mem h1
    exact ih u.length (by rw [← hn]; simp) u gr' (w ++ gr :: post) rfl (by rw [e]; simp) y h2 hy

/-- C118: everything that does not lead to a cycle is yielded before `toposort` raises, and nothing else is. -/
theorem C118_yielded (x : α) : x ∈ (toposort g).1.flatten ↔ IsNode g x ∧ ¬ LeadsToCycle (Dep g) x := by
  constructor
  · intro hx
    refine ⟨(C17_groups_are_layers hnd).2.2.1 x hx, ?_⟩
    obtain ⟨gr, h1, h2⟩ := List.mem_flatten.1 hx
    obtain ⟨pre, post, e⟩ := List.append_of_mem h1
    exact yielded_not_leads hnd _ pre gr post rfl e x h2
  · rintro ⟨hx, hl⟩
    cases he : (toposort g).2 with
    | done => exact C17_every_node_yielded hnd he x hx
    | outOfFuel => exact absurd he (C17_terminates hnd)
    | cyclic rest =>
      apply Classical.byContradiction
      intro hno
      obtain ⟨e1, e2⟩ := topoLoop_rest _ _ he
      have hk : ∀ z, z ∈ rest.map Prod.fst → ∃ y ∈ rest.map Prod.fst, Dep g z y := by
        intro z hz
        obtain ⟨⟨k, v⟩, hkv, rfl⟩ := List.mem_map.1 hz
        have hv := e2 _ hkv
        obtain ⟨y, hy⟩ := List.exists_mem_of_ne_nil _ hv
        have hkv' := hkv
        rw [e1] at hkv'
        obtain ⟨-, w, hw, rfl⟩ := mem_topoRest.1 hkv'
        simp only [List.mem_filter, decide_eq_true_eq] at hy
        refine ⟨y, ?_, (topo_dep hnd k y).1 ⟨w, hw, hy.1⟩⟩
        rw [e1]
        exact keys_topoRest.2 ⟨(topoData_ok hnd).closed k w hw y hy.1, hy.2⟩
      have hxr : x ∈ rest.map Prod.fst := by
        rw [e1]
        exact keys_topoRest.2 ⟨(topo_isNode hnd x).2 hx, hno⟩
      -- what can be reached from x is without cycles, yet always goes on
      classical
      obtain ⟨z, hz, hs⟩ := exists_sink (fun a b => ReflTransGen (Dep g) x a ∧ TransGen (Dep g) a b)
        (fun h1 h2 => ⟨h1.1, h1.2.trans h2.2⟩) (fun a ha => hl ⟨a, ha.1, ha.2⟩)
        ((rest.map Prod.fst).filter (fun a => decide (ReflTransGen (Dep g) x a)))
        (List.ne_nil_of_mem (List.mem_filter.2 ⟨hxr, by simpa using ReflTransGen.refl⟩))
      simp only [List.mem_filter, decide_eq_true_eq] at hz hs
      obtain ⟨y, hy, hd⟩ := hk z hz.1
      exact hs y ⟨hy, hz.2.tail hd⟩ ⟨hz.2, .single hd⟩

/-- C118: the items that are listed when `toposort` raises are exactly the nodes that lead to a cycle, each once, and each with
exactly those of its dependencies that lead to a cycle themselves (there is at least one). -/
theorem C118_items {rest : Adj α} (h : (toposort g).2 = .cyclic rest) :
    (rest.map Prod.fst).Nodup ∧ (∀ x, x ∈ rest.map Prod.fst ↔ LeadsToCycle (Dep g) x) ∧
    ∀ x v, (x, v) ∈ rest → v ≠ [] ∧ ∀ y, y ∈ v ↔ Dep g x y ∧ LeadsToCycle (Dep g) y := by
  obtain ⟨e1, e2⟩ := topoLoop_rest _ _ h
  have hnode : ∀ x, LeadsToCycle (Dep g) x → IsNode g x := by
    intro x hx
    obtain ⟨y, ⟨⟨v, hv, -⟩, -⟩, -⟩ := hx.step
    exact Or.inl (List.mem_map_of_mem hv)
  have hkeys : ∀ x, x ∈ rest.map Prod.fst ↔ LeadsToCycle (Dep g) x := by
    intro x
    rw [e1, keys_topoRest, topo_isNode hnd]
    change _ ∧ x ∉ (toposort g).1.flatten ↔ _
    rw [C118_yielded hnd]
    constructor
    · rintro ⟨h1, h2⟩
      apply Classical.byContradiction
      exact fun h3 => h2 ⟨h1, h3⟩
    · exact fun hx => ⟨hnode x hx, fun h2 => h2.2 hx⟩
  refine ⟨?_, hkeys, ?_⟩
  · rw [e1]; exact ((topoData_ok hnd).rest _).nd
  · intro x v hv
    refine ⟨e2 _ hv, ?_⟩
    intro y
    have hv' := hv
    rw [e1] at hv'
    obtain ⟨-, w, hw, rfl⟩ := mem_topoRest.1 hv'
    simp only [List.mem_filter, decide_eq_true_eq]
    change _ ∧ y ∉ (toposort g).1.flatten ↔ _
    rw [C118_yielded hnd]
    constructor
    · rintro ⟨h1, h2⟩
      have hd := (topo_dep hnd x y).1 ⟨w, hw, h1⟩
      refine ⟨hd, ?_⟩
      apply Classical.byContradiction
      intro h3
      exact h2 ⟨(topo_isNode hnd y).1 ((topoData_ok hnd).closed x w hw y h1), h3⟩
    · rintro ⟨hd, hl⟩
      obtain ⟨w', hw', hy⟩ := (topo_dep hnd x y).2 hd
      rw [unique_of_nodup (topoData_ok hnd).nd hw hw']
      exact ⟨hy, fun h2 => h2.2 hl⟩

end
end

/-! ### The text -/

/-- A text that `repr` shows as it is, between quotes, and that the lines of the message can be cut at -/
structure PlainItem (repr : List Char → List Char) (t : List Char) : Prop where
  quoted : repr t = '\'' :: (t ++ ['\''])
  noQuote : '\'' ∉ t
  noNewline : '\n' ∉ t
  noBracket : '[' ∉ t

theorem cut_at {c : Char} {a a' b b' : List Char} (ha : c ∉ a) (ha' : c ∉ a') (h : a ++ c :: b = a' ++ c :: b') : a = a' ∧ b = b' := by
  induction a generalizing a' with
  | nil =>
    cases a' with
    | nil => simpa using h
    | cons x a' =>
      simp only [List.nil_append, List.cons_append, List.cons.injEq] at h
      exact absurd (by simp [h.1]) ha'
  | cons x a ih =>
    cases a' with
    | nil =>
      simp only [List.nil_append, List.cons_append, List.cons.injEq] at h
      exact absurd (by simp [h.1]) ha
    | cons y a' =>
      simp only [List.cons_append, List.cons.injEq] at h
      obtain ⟨h1, h2⟩ := ih (fun hc => ha (by simp [hc])) (fun hc => ha' (by simp [hc])) h.2
      exact ⟨by rw [h.1, h1], h2⟩

theorem joinWith_cons2 (sep p q : List Char) (ps : List (List Char)) : joinWith sep (p :: q :: ps) = p ++ sep ++ joinWith sep (q :: ps) := rfl

theorem quoted_inj {repr : List Char → List Char} : ∀ {l l' : List (List Char)}, (∀ t ∈ l, PlainItem repr t) →
    (∀ t ∈ l', PlainItem repr t) → joinWith ", ".toList (l.map repr) ++ [']'] = joinWith ", ".toList (l'.map repr) ++ [']'] → l = l'
  | [], [], _, _, _ => rfl
  | [], t :: l', _, hl', h => by
    exfalso
    have e := (hl' t (by simp)).quoted
    cases l' with
    | nil => simp [joinWith, e] at h
    | cons u l' => simp [joinWith, e] at h
  | t :: l, [], hl, _, h => by
    exfalso
    have e := (hl t (by simp)).quoted
    cases l with
    | nil => simp [joinWith, e] at h
    | cons u l => simp [joinWith, e] at h
  | [t], [t'], hl, hl', h => by
    have e := (hl t (by simp)).quoted
    have e' := (hl' t' (by simp)).quoted
    simp only [List.map_cons, List.map_nil, joinWith, e, e', List.cons_append, List.cons.injEq, true_and, List.append_assoc,
      List.nil_append] at h
    rw [(cut_at (hl t (by simp)).noQuote (hl' t' (by simp)).noQuote h).1]
  | [t], t' :: u' :: l', hl, hl', h => by
    exfalso
    have e := (hl t (by simp)).quoted
    have e' := (hl' t' (by simp)).quoted
    simp only [List.map_cons, List.map_nil, joinWith, e, e', List.cons_append, List.cons.injEq, true_and, List.append_assoc,
      List.nil_append] at h
    have := (cut_at (hl t (by simp)).noQuote (hl' t' (by simp)).noQuote h).2
    simp at this
  | t :: u :: l, [t'], hl, hl', h => by
    exfalso
    have e := (hl t (by simp)).quoted
    have e' := (hl' t' (by simp)).quoted
    simp only [List.map_cons, List.map_nil, joinWith, e, e', List.cons_append, List.cons.injEq, true_and, List.append_assoc,
      List.nil_append] at h
    have := (cut_at (hl t (by simp)).noQuote (hl' t' (by simp)).noQuote h).2
    simp at this
  | t :: u :: l, t' :: u' :: l', hl, hl', h => by
    have e := (hl t (by simp)).quoted
    have e' := (hl' t' (by simp)).quoted
    rw [List.map_cons, List.map_cons, joinWith_cons2, List.map_cons, List.map_cons, joinWith_cons2, e, e'] at h
    simp only [List.cons_append, List.cons.injEq, true_and, List.append_assoc, List.nil_append] at h
    obtain ⟨h1, h2⟩ := cut_at (hl t (by simp)).noQuote (hl' t' (by simp)).noQuote h
    have h3 := List.append_cancel_left h2
    have := quoted_inj (l := u :: l) (l' := u' :: l') (fun x hx => hl x (by simp [hx])) (fun x hx => hl' x (by simp [hx])) h3
    rw [h1, this]

theorem cycleLine_inj {repr : List Char → List Char} {a b : List Char × List (List Char)} (ha : '[' ∉ a.1) (hb : '[' ∉ b.1)
    (ha' : ∀ t ∈ a.2, PlainItem repr t) (hb' : ∀ t ∈ b.2, PlainItem repr t) (h : cycleLine repr a = cycleLine repr b) : a = b := by
  unfold cycleLine at h
  have hb0 : '[' ∉ " -> ".toList := by decide
  obtain ⟨h1, h2⟩ := cut_at (by simp only [List.mem_append, not_or]; exact ⟨ha, hb0⟩)
    (by simp only [List.mem_append, not_or]; exact ⟨hb, hb0⟩) h
  have h3 := List.append_cancel_right h1
  have h4 := quoted_inj ha' hb' h2
  exact Prod.ext h3 h4

theorem newline_cycleLine {repr : List Char → List Char} {a : List Char × List (List Char)} (h1 : '\n' ∉ a.1)
    (h2 : ∀ t ∈ a.2, PlainItem repr t) : '\n' ∉ cycleLine repr a := by
  unfold cycleLine
  have e1 : '\n' ∉ " -> ".toList := by decide
  have e2 : '\n' ∉ ", ".toList := by decide
  intro h
  simp only [List.mem_append, List.mem_cons, List.not_mem_nil, or_false] at h
  rcases h with (h | h) | h | h | h
  · exact h1 h
  · exact e1 h
  · exact absurd h (by decide)
  · rcases mem_joinWith h with h | ⟨l, hl, h⟩
    · exact e2 h
    · obtain ⟨t, ht, rfl⟩ := List.mem_map.1 hl
      rw [(h2 t ht).quoted] at h
      simp only [List.mem_cons, List.mem_append, List.not_mem_nil, or_false] at h
      rcases h with h | h | h
      · exact absurd h (by decide)
      · exact (h2 t ht).noNewline h
      · exact absurd h (by decide)
  · exact absurd h (by decide)

theorem map_inj_on {β γ : Type} {f : β → γ} : ∀ {l l' : List β}, (∀ a ∈ l, ∀ b ∈ l', f a = f b → a = b) → l.map f = l'.map f → l = l'
  | [], [], _, _ => rfl
  | [], _ :: _, _, h => by simp at h
  | _ :: _, [], _, h => by simp at h
  | a :: l, b :: l', hf, h => by
    simp only [List.map_cons, List.cons.injEq] at h
    rw [hf a (by simp) b (by simp) h.1, map_inj_on (fun x hx y hy => hf x (by simp [hx]) y (by simp [hy])) h.2]

/-- C118: the message can be read: the items that it lists, with the dependencies listed for each of them, can be told from the text,
as long as the texts of the items have no quotes, line feeds, and `[` (and nothing else that Python escapes between quotes). -/
theorem C118_readable {repr : List Char → List Char} {items items' : List (List Char × List (List Char))} (hne : items ≠ [])
    (hne' : items' ≠ []) (h : ∀ i ∈ items, PlainItem repr i.1 ∧ ∀ t ∈ i.2, PlainItem repr t)
    (h' : ∀ i ∈ items', PlainItem repr i.1 ∧ ∀ t ∈ i.2, PlainItem repr t) (he : cycleText repr items = cycleText repr items') :
    items = items' := by
  unfold cycleText at he
  have h1 := List.append_cancel_left he
  have nl : ∀ its : List (List Char × List (List Char)), (∀ i ∈ its, PlainItem repr i.1 ∧ ∀ t ∈ i.2, PlainItem repr t) →
      ∀ l ∈ its.map (cycleLine repr), '\n' ∉ l := by
    intro its hp l hl
    obtain ⟨i, hi, rfl⟩ := List.mem_map.1 hl
    exact newline_cycleLine (hp i hi).1.noNewline (hp i hi).2
  have h2 := congrArg (cut '\n') h1
  rw [cut_join (by simpa using hne) (nl items h), cut_join (by simpa using hne') (nl items' h')] at h2
  exact map_inj_on (fun a ha b hb e => cycleLine_inj (h a ha).1.noBracket (h' b hb).1.noBracket (h a ha).2 (h' b hb).2 e) h2

/-! ### Transactions -/

section
variable {N S U : Type} [LinearOrder N] [DecidableEq S] [LinearOrder U] [Syntax S U]
variable {rs : List (Repository N S U)} {m : Option (Modifiers N)} {pool : Pool N S U} (hB : Built rs m pool)
  {D : List Int} (hD : Decisions pool D) {installed : List Nat} (hI : ∀ i ∈ installed, ∃ k, IdOf pool k i)

open Classical in
/-- How the message shows a decided package: `name-version`, or `-(name-version)` if it is decided out. -/
noncomputable def shown (T : Texts N U) (pool : Pool N S U) (D : List Int) (k : PKey N S U) : List Char :=
  if DecidedIn pool D k then T.name k.name ++ '-' :: T.version k.version
  else '-' :: '(' :: (T.name k.name ++ '-' :: (T.version k.version ++ [')']))

/-- the package with this literal -/
def litKey (pool : Pool N S U) (k0 : PKey N S U) (l : Int) : PKey N S U :=
  match pool.idToPkg l.natAbs with
  | .ok p => p.key
  | .error _ => k0

include hB hD

theorem litKey_id (k0 : PKey N S U) {l : Int} (hl : l ∈ D) : IdOf pool (litKey pool k0 l) l.natAbs := by
  obtain ⟨k, hk⟩ := hD.known l hl
  obtain ⟨p, -, rfl, h2, h3⟩ := IdOf.get hB.ok hk
  rw [litKey, h2]
  exact hk

theorem lit_inj {k : PKey N S U} {x y : Int} (hx : x ∈ D) (hy : y ∈ D) (h : IdOf pool k x.natAbs) (h' : IdOf pool k y.natAbs) : x = y := by
  rcases Int.natAbs_eq_natAbs_iff.1 (IdOf.fn h h') with e | e
  · exact e
  · rw [e] at hx
    exact absurd hx (hD.consistent y hy)

theorem dep_iff {g : Adj Int} (hg : packageLitDependencyGraph pool D true = .ok g) {x y : Int} (hx : x ∈ D) (hy : y ∈ D)
    {k k' : PKey N S U} (hk : IdOf pool k x.natAbs) (hk' : IdOf pool k' y.natAbs) :
    Dep g x y ↔ DecidedDep pool (allPackages rs) m D k k' := by
  have e := graph_dep hB.ok hD hg hx hk hy hk'
  rw [hB.modifiers] at e
  constructor
  · rintro ⟨h1, h2⟩
    refine ⟨(decided_iff hD k).2 ⟨x, hx, hk⟩, (decided_iff hD k').2 ⟨y, hy, hk'⟩, ?_, e.1 h1⟩
    rintro rfl
    exact h2 (lit_inj hB hD hy hx hk' hk)
  · rintro ⟨-, -, h1, h2⟩
    refine ⟨e.2 h2, ?_⟩
    rintro rfl
    exact h1 (IdOf.inj hB.ok hk hk')

theorem leads_iff {g : Adj Int} (hg : packageLitDependencyGraph pool D true = .ok g) (k0 : PKey N S U) {x : Int} (hx : x ∈ D) :
    LeadsToCycle (Dep g) x ↔ LeadsToCycle (DecidedDep pool (allPackages rs) m D) (litKey pool k0 x) := by
  have lift : ∀ a b, Dep g a b → DecidedDep pool (allPackages rs) m D (litKey pool k0 a) (litKey pool k0 b) := by
    intro a b h
    obtain ⟨ha, hb⟩ := graph_edge_mem hB.ok hD hg h.1
    exact (dep_iff hB hD hg ha hb (litKey_id hB hD k0 ha) (litKey_id hB hD k0 hb)).1 h
  have down : ∀ a ∈ D, ∀ k, DecidedDep pool (allPackages rs) m D (litKey pool k0 a) k →
      ∃ b ∈ D, litKey pool k0 b = k ∧ Dep g a b := by
    intro a ha k h
    obtain ⟨b, hb, hkb⟩ := (decided_iff hD k).1 h.2.1
    have e : litKey pool k0 b = k := IdOf.inj hB.ok (litKey_id hB hD k0 hb) hkb
    exact ⟨b, hb, e, (dep_iff hB hD hg ha hb (litKey_id hB hD k0 ha) hkb).2 h⟩
  have downR : ∀ a ∈ D, ∀ k, ReflTransGen (DecidedDep pool (allPackages rs) m D) (litKey pool k0 a) k →
      ∃ b ∈ D, litKey pool k0 b = k ∧ ReflTransGen (Dep g) a b := by
    intro a ha k h
    induction h with
    | refl => exact ⟨a, ha, rfl, .refl⟩
    | tail _ h ih =>
      obtain ⟨b, hb, rfl, hr⟩ := ih
      obtain ⟨c, hc, e, hd⟩ := down b hb _ h
      exact ⟨c, hc, e, hr.tail hd⟩
  constructor
  · rintro ⟨y, h1, h2⟩
    exact ⟨litKey pool k0 y, h1.lift _ lift, h2.lift _ lift⟩
  · rintro ⟨k, h1, h2⟩
    obtain ⟨y, hy, rfl, h3⟩ := downR x hx k h1
    obtain ⟨k', h4, h5⟩ := TransGen.head'_iff.1 h2
    obtain ⟨z, hz, rfl, h6⟩ := down y hy k' h4
    obtain ⟨y', hy', e, h7⟩ := downR z hz _ h5
    have : y' = y := lit_inj hB hD hy' hy (by rw [← e]; exact litKey_id hB hD k0 hy') (litKey_id hB hD k0 hy)
    rw [this] at h7
    exact ⟨y, h3, TransGen.head' h6 h7⟩

theorem keyToPretty_eq (T : Texts N U) (k0 : PKey N S U) {l : Int} (hl : l ∈ D) :
    keyToPretty T pool l = shown T pool D (litKey pool k0 l) := by
  have hk := litKey_id hB hD k0 hl
  obtain ⟨p, -, h1, h2, h3⟩ := IdOf.get hB.ok hk
  have e1 : packageKey pool l.natAbs = .ok ((litKey pool k0 l).name, (litKey pool k0 l).version) := by
    rw [packageKey, h2, ← h1]
    rfl
  have e2 : DecidedIn pool D (litKey pool k0 l) ↔ 0 < l := by
    constructor
    · rintro ⟨i, hi, hm⟩
      have := IdOf.fn hi hk
      subst this
      have := IdOf.pos hB.ok hk
      have h5 := lit_inj hB hD hm hl (k := litKey pool k0 l) (by simpa using hk) hk
      omega
    · intro h
      exact ⟨l.natAbs, hk, by rw [Int.natAbs_of_nonneg (Int.le_of_lt h)]; exact hl⟩
  rw [keyToPretty, e1, shown]
  simp only
  by_cases h : 0 < l
  · rw [if_pos h, if_pos (e2.2 h)]
  · rw [if_neg h, if_neg (fun hh => h (e2.1 hh))]

include hI

/-- C118: the message of the ValueError that a transaction raises when the decided packages have a dependency cycle lists exactly
the decided packages that lead to a cycle, each once, and with each of them exactly those of its dependencies among the decided
packages that lead to a cycle; a package that is to be removed is shown as `-(name-version)`. -/
theorem C118_transaction (hdeps : ∀ k, Decided pool D k → ∀ t ∈ k.installRequires,
      ∃ r : Requirement N U, fromConstraints .install t = .ok r)
    (hc : ∃ k, TransGen (DecidedDep pool (allPackages rs) m D) k k) (T : Texts N U) (repr : List Char → List Char)
    (order : List Int → List Int) (horder : ∀ l, (order l).Perm l) :
    mkTransaction pool D installed = .error .valueError ∧
    ∃ items : List (PKey N S U × List (PKey N S U)),
      transactionCycle T repr order pool D =
        some (cycleText repr (items.map (fun i => (shown T pool D i.1, i.2.map (shown T pool D))))) ∧
      items ≠ [] ∧ (items.map Prod.fst).Nodup ∧
      (∀ k, k ∈ items.map Prod.fst ↔ LeadsToCycle (DecidedDep pool (allPackages rs) m D) k) ∧
      ∀ k ds, (k, ds) ∈ items → ds ≠ [] ∧
        ∀ k', k' ∈ ds ↔ DecidedDep pool (allPackages rs) m D k k' ∧ LeadsToCycle (DecidedDep pool (allPackages rs) m D) k' := by
  refine ⟨C47_cycle_raises hB hD hI hdeps hc, ?_⟩
  obtain ⟨g, hg⟩ := graph_exists hB.ok hD (fun l hl k hk t ht => hdeps k ((decided_iff hD k).2 ⟨l, hl, hk⟩) t ht)
  have hnd := graph_nodup hg
  obtain ⟨rest, hr⟩ := (C18_raises_iff_cycle hnd).2 ((cycle_iff hB hD hg).2 hc)
  obtain ⟨h1, h2, h3⟩ := C118_items hnd hr
  obtain ⟨k0, hk0⟩ := hc
  have inD : ∀ x, LeadsToCycle (Dep g) x → x ∈ D := by
    intro x hx
    obtain ⟨y, hd, -⟩ := hx.step
    exact (graph_edge_mem hB.ok hD hg hd.1).1
  have keyD : ∀ x ∈ rest.map Prod.fst, x ∈ D := fun x hx => inD x ((h2 x).1 hx)
  refine ⟨rest.map (fun kv => (litKey pool k0 kv.1, (order kv.2).map (litKey pool k0))), ?_, ?_, ?_, ?_, ?_⟩
  · simp only [transactionCycle, hg, hr, cycleItems, List.map_map]
    congr 2
    apply List.map_congr_left
    intro kv hkv
    simp only [Function.comp, Prod.mk.injEq]
    refine ⟨keyToPretty_eq hB hD T k0 (keyD _ (List.mem_map_of_mem hkv)), ?_⟩
    rw [List.map_map]
    apply List.map_congr_left
    intro y hy
    have hy' := (horder kv.2).mem_iff.1 hy
    exact keyToPretty_eq hB hD T k0 (inD y (((h3 kv.1 kv.2 hkv).2 y).1 hy').2)
  · intro e
    have hcy := (cycle_iff hB hD hg).2 ⟨k0, hk0⟩
    obtain ⟨x, hx⟩ := hcy
    have := (h2 x).2 ⟨x, .refl, hx⟩
    rw [List.map_eq_nil_iff.1 e] at this
    simp at this
  · rw [List.map_map]
    have : (rest.map (Prod.fst ∘ fun kv : Int × List Int => (litKey pool k0 kv.1, (order kv.2).map (litKey pool k0)))) =
        (rest.map Prod.fst).map (litKey pool k0) := by rw [List.map_map]; rfl
    rw [this]
    refine h1.map_on ?_
    intro x hx y hy e
    exact lit_inj hB hD (keyD x hx) (keyD y hy) (litKey_id hB hD k0 (keyD x hx))
      (by rw [e]; exact litKey_id hB hD k0 (keyD y hy))
  · intro k
    have : ((rest.map (fun kv : Int × List Int => (litKey pool k0 kv.1, (order kv.2).map (litKey pool k0)))).map Prod.fst) =
        (rest.map Prod.fst).map (litKey pool k0) := by rw [List.map_map, List.map_map]; rfl
    rw [this, List.mem_map]
    constructor
    · rintro ⟨x, hx, rfl⟩
      exact (leads_iff hB hD hg k0 (keyD x hx)).1 ((h2 x).1 hx)
    · intro hk
      obtain ⟨k', hd, -⟩ := hk.step
      obtain ⟨x, hx, hkx⟩ := (decided_iff hD k).1 hd.1
      have e : litKey pool k0 x = k := IdOf.inj hB.ok (litKey_id hB hD k0 hx) hkx
      refine ⟨x, (h2 x).2 ((leads_iff hB hD hg k0 hx).2 (by rw [e]; exact hk)), e⟩
  · intro k ds hkd
    obtain ⟨⟨x, v⟩, hxv, e⟩ := List.mem_map.1 hkd
    simp only [Prod.mk.injEq] at e
    obtain ⟨rfl, rfl⟩ := e
    obtain ⟨hne, hv⟩ := h3 x v hxv
    have hxD := keyD x (List.mem_map_of_mem hxv)
    refine ⟨?_, ?_⟩
    · intro e
      have := List.map_eq_nil_iff.1 e
      have h4 := (horder v).length_eq
      rw [this] at h4
      exact hne (List.length_eq_zero_iff.1 h4.symm)
    · intro k'
      rw [List.mem_map]
      constructor
      · rintro ⟨y, hy, rfl⟩
        obtain ⟨hd, hl⟩ := (hv y).1 ((horder v).mem_iff.1 hy)
        have hyD := inD y hl
        exact ⟨(dep_iff hB hD hg hxD hyD (litKey_id hB hD k0 hxD) (litKey_id hB hD k0 hyD)).1 hd,
          (leads_iff hB hD hg k0 hyD).1 hl⟩
      · rintro ⟨hd, hl⟩
        obtain ⟨y, hyD, hky⟩ := (decided_iff hD k').1 hd.2.1
        have e : litKey pool k0 y = k' := IdOf.inj hB.ok (litKey_id hB hD k0 hyD) hky
        refine ⟨y, (horder v).mem_iff.2 ((hv y).2 ⟨?_, ?_⟩), e⟩
        · exact (dep_iff hB hD hg hxD hyD (litKey_id hB hD k0 hxD) hky).2 hd
        · exact (leads_iff hB hD hg k0 hyD).2 (by rw [e]; exact hl)

end

/-! ### Concrete cases -/

namespace CycleExample
open Verif.Pkg.Example Verif.Solve.Example

/-- nodes 1 and 2 need each other, 4 needs 1 and 3, 3 needs nothing, 5 needs 3 and itself: 3 and 5 are yielded -/
example : (toposort [(1, [2]), (2, [1, 3]), (4, [1, 3]), (5, [3, 5])]).1 = [[3], [5]] := by decide
example : (match (toposort [(1, [2]), (2, [1, 3]), (4, [1, 3]), (5, [3, 5])]).2 with | .cyclic rest => rest | _ => []) =
    [(1, [2]), (2, [1]), (4, [1])] := by decide

/-- names and versions are shown as digits -/
def texts : Texts Nat Nat :=
  ⟨fun n => [Char.ofNat (48 + n)], fun v => [Char.ofNat (48 + v.upstream)], fun _ => []⟩

def quote (t : List Char) : List Char := '\'' :: (t ++ ['\''])

/-- installed: 1-1, and 2-1, which needs package 1; to be replaced by 1-2, which needs package 2, and 2-2 -/
def repos0 : List (Repository Nat Str Nat) := [Repository.ofList [pkg 9 1 1, pkg 9 2 1 [dep 1]],
  Repository.ofList [pkg 0 1 2 [dep 2], pkg 0 2 2]]
def pool0 : Pool Nat Str Nat := poolOf repos0
def D0 : List Int := [-1, -2, 3, 4]

theorem built0 : Built repos0 none pool0 := ⟨none, pool0, rfl, rfl⟩

theorem decisions0 : Decisions pool0 D0 := by
  refine ⟨?_, by decide⟩
  intro l hl
  simp only [D0, List.mem_cons, List.not_mem_nil, or_false] at hl
  rcases hl with rfl | rfl | rfl | rfl
  · exact ⟨_, pkg 9 1 1, rfl, by decide +kernel⟩
  · exact ⟨_, pkg 9 2 1 [dep 1], rfl, by decide +kernel⟩
  · exact ⟨_, pkg 0 1 2 [dep 2], rfl, by decide +kernel⟩
  · exact ⟨_, pkg 0 2 2, rfl, by decide +kernel⟩

theorem installed0 : ∀ i ∈ [1, 2], ∃ k, IdOf pool0 k i := by
  intro i hi
  simp only [List.mem_cons, List.not_mem_nil, or_false] at hi
  rcases hi with rfl | rfl
  · exact ⟨_, pkg 9 1 1, rfl, by decide +kernel⟩
  · exact ⟨_, pkg 9 2 1 [dep 1], rfl, by decide +kernel⟩

theorem readable0 : ∀ k, Decided pool0 D0 k → ∀ t ∈ k.installRequires,
    ∃ r : Requirement Nat Nat, fromConstraints .install t = .ok r := by
  have key : ∀ k i, IdOf pool0 k i → ∀ t ∈ k.installRequires,
      ∃ r : Requirement Nat Nat, fromConstraints .install t = .ok r := by
    intro k i h t ht
    obtain ⟨p, hp, rfl, -, -⟩ := IdOf.get built0.ok h
    have e : allPackages repos0 = [pkg 9 1 1, pkg 9 2 1 [dep 1], pkg 0 1 2 [dep 2], pkg 0 2 2] := by decide +kernel
    rw [e] at hp
    simp only [List.mem_cons, List.not_mem_nil, or_false] at hp
    have : t = dep 1 ∨ t = dep 2 := by
      rcases hp with rfl | rfl | rfl | rfl <;> simp_all [Package.key, pkg]
    rcases this with rfl | rfl
    · exact ⟨_, rfl⟩
    · exact ⟨_, rfl⟩
  rintro k (⟨i, h, -⟩ | ⟨i, h, -⟩)
  · exact key k i h
  · exact key k i h

theorem graph0 : packageLitDependencyGraph pool0 D0 true = .ok [(-1, []), (-2, [-1, 3]), (3, [-2, 4]), (4, [])] := by
  decide +kernel

theorem cycle0 : ∃ k, TransGen (DecidedDep pool0 (allPackages repos0) none D0) k k := by
  refine (cycle_iff built0 decisions0 graph0).1 ⟨-2, ?_⟩
  have h1 : Dep [(-1, []), (-2, [-1, 3]), (3, [-2, 4]), (4, [])] (-2 : Int) 3 := ⟨⟨[-1, 3], by simp, by simp⟩, by decide⟩
  have h2 : Dep [(-1, []), (-2, [-1, 3]), (3, [-2, 4]), (4, [])] (3 : Int) (-2) := ⟨⟨[-2, 4], by simp, by simp⟩, by decide⟩
  exact (TransGen.single h1).tail h2

/-- the hypotheses of `C118_transaction` -/
example := C118_transaction built0 decisions0 installed0 readable0 cycle0 texts quote id (fun l => List.Perm.refl l)

/-- -(2-1) leads to the cycle of -(2-1) and 1-2 -/
example : (transactionCycle texts quote id pool0 D0).map String.ofList =
    some "Cyclic dependencies exist among these items:\n-(2-1) -> ['1-2']\n1-2 -> ['-(2-1)']" := by decide +kernel

/-- the hypotheses of `C118_readable` -/
example : PlainItem quote "-(2-1)".toList := ⟨rfl, by decide, by decide, by decide⟩

end CycleExample
end Verif.Props
