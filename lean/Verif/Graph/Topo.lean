import Verif.Graph.Model
import Mathlib.Logic.Relation
/-
Lemmas about toposort.
-/
set_option linter.unusedSectionVars false
namespace Verif.Graph
open Verif

variable {α : Type} [DecidableEq α]

theorem mem_topoReady {data : Adj α} {x : α} : x ∈ topoReady data ↔ (x, []) ∈ data := by
  simp only [topoReady, List.mem_map, List.mem_filter, List.isEmpty_iff]
  constructor
  · rintro ⟨⟨k, v⟩, ⟨h1, h2⟩, rfl⟩; simp only at h2; subst h2; exact h1
  · intro h; exact ⟨(x, []), ⟨h, rfl⟩, rfl⟩

theorem mem_topoRest {data : Adj α} {o : List α} {x : α} {v : List α} :
    (x, v) ∈ topoRest data o ↔ x ∉ o ∧ ∃ w, (x, w) ∈ data ∧ v = w.filter (fun d => decide (d ∉ o)) := by
  simp only [topoRest, List.mem_map, List.mem_filter, decide_eq_true_eq, Prod.mk.injEq]
  constructor
  · rintro ⟨⟨k, w⟩, ⟨h1, h2⟩, rfl, rfl⟩; exact ⟨h2, w, h1, rfl⟩
  · rintro ⟨h1, w, h2, rfl⟩; exact ⟨(x, w), ⟨h2, h1⟩, rfl, rfl⟩

theorem keys_topoRest {data : Adj α} {o : List α} {x : α} :
    x ∈ (topoRest data o).map Prod.fst ↔ x ∈ data.map Prod.fst ∧ x ∉ o := by
  simp only [List.mem_map, Prod.exists, exists_and_right, exists_eq_right]
  constructor
  · rintro ⟨v, h⟩; obtain ⟨h1, w, h2, -⟩ := mem_topoRest.1 h; exact ⟨⟨w, h2⟩, h1⟩
  · rintro ⟨⟨w, h2⟩, h1⟩; exact ⟨_, mem_topoRest.2 ⟨h1, w, h2, rfl⟩⟩

theorem unique_of_nodup {data : Adj α} (h : (data.map Prod.fst).Nodup) {x : α} {v w : List α}
    (h1 : (x, v) ∈ data) (h2 : (x, w) ∈ data) : v = w := by
  induction data with
  | nil => simp at h1
  | cons kv t ih =>
    simp only [List.map_cons, List.nodup_cons] at h
    rcases List.mem_cons.1 h1 with e1 | e1 <;> rcases List.mem_cons.1 h2 with e2 | e2
    · rw [← e1] at e2; exact (Prod.mk.inj e2).2.symm
    · rw [← e1] at h; exact absurd (List.mem_map_of_mem e2) h.1
    · rw [← e2] at h; exact absurd (List.mem_map_of_mem e1) h.1
    · exact ih h.2 e1 e2

/-- data of the loop: distinct keys, every dependency is a key -/
structure TopoOK (data : Adj α) : Prop where
  nd : (data.map Prod.fst).Nodup
  closed : ∀ x v, (x, v) ∈ data → ∀ y ∈ v, y ∈ data.map Prod.fst

theorem TopoOK.rest {data : Adj α} (h : TopoOK data) (o : List α) : TopoOK (topoRest data o) where
  nd := by
    have : (topoRest data o).map Prod.fst = (data.map Prod.fst).filter (fun x => decide (x ∉ o)) := by
      unfold topoRest
      rw [List.map_map, List.filter_map]
      rfl
    rw [this]
    exact h.nd.filter _
  closed := by
    intro x v hm y hy
    obtain ⟨h1, w, h2, rfl⟩ := mem_topoRest.1 hm
    simp only [List.mem_filter, decide_eq_true_eq] at hy
    exact keys_topoRest.2 ⟨h.closed x w h2 y hy.1, hy.2⟩

theorem topoReady_nodup {data : Adj α} (h : (data.map Prod.fst).Nodup) : (topoReady data).Nodup := by
  unfold topoReady
  exact h.sublist (List.Sublist.map _ List.filter_sublist)

theorem topoRest_length {data : Adj α} (h : topoReady data ≠ []) : (topoRest data (topoReady data)).length < data.length := by
  unfold topoRest
  rw [List.length_map]
  obtain ⟨x, hx⟩ := List.exists_mem_of_ne_nil _ h
  have hm := mem_topoReady.1 hx
  have : (data.filter (fun kv => decide (kv.1 ∉ topoReady data))).length < data.length := by
    apply Nat.lt_of_le_of_ne (List.length_filter_le _ _)
    intro e
    have := List.length_filter_eq_length_iff.1 e (x, []) hm
    simp only [decide_eq_true_eq] at this
    exact this hx
  exact this

structure TopoSpec (data : Adj α) (r : List (List α) × TopoEnd α) : Prop where
  nonempty : ∀ gr ∈ r.1, gr ≠ []
  nodup : r.1.flatten.Nodup
  keys : ∀ x ∈ r.1.flatten, x ∈ data.map Prod.fst
  layered : ∀ pre gr post, r.1 = pre ++ gr :: post → ∀ x ∈ gr, ∀ v, (x, v) ∈ data → ∀ y ∈ v, y ∈ pre.flatten
  tight : ∀ pre gr gr' post, r.1 = pre ++ gr :: gr' :: post → ∀ x ∈ gr', ∃ v, (x, v) ∈ data ∧ ∃ y ∈ v, y ∈ gr
  first : ∀ gr post, r.1 = gr :: post → ∀ x ∈ data.map Prod.fst, (∀ v, (x, v) ∈ data → v = []) → x ∈ gr
  fuel : r.2 ≠ .outOfFuel
  done : r.2 = .done → ∀ x ∈ data.map Prod.fst, x ∈ r.1.flatten
  cyclic : ∀ rest, r.2 = .cyclic rest → rest ≠ [] ∧ ∀ x ∈ rest.map Prod.fst, x ∈ data.map Prod.fst ∧
    ∃ y ∈ rest.map Prod.fst, ∃ v, (x, v) ∈ data ∧ y ∈ v

theorem topoLoop_spec (fuel : Nat) (data : Adj α) (h : TopoOK data) (hf : data.length < fuel) :
    TopoSpec data (topoLoop fuel data) := by
  induction fuel generalizing data with
  | zero => omega
  | succ fuel ih =>
    unfold topoLoop
    simp only
    split
    · rename_i ho
      refine ⟨by simp, by simp, by simp, ?_, ?_, by simp, ?_, ?_, ?_⟩
      · intro pre gr post e; simp at e
      · intro pre gr gr' post e; simp at e
      · simp only; split <;> simp
      · simp only
        split
        · rename_i hd; subst hd; simp
        · intro e; cases e
      · intro rest
        simp only
        split
        · intro e; cases e
        · rename_i hne
          intro e; cases e
          refine ⟨hne, ?_⟩
          intro x hx
          refine ⟨hx, ?_⟩
          obtain ⟨⟨k, v⟩, hm, rfl⟩ := List.mem_map.1 hx
          cases v with
          | nil =>
            have := mem_topoReady.2 hm
            rw [ho] at this; simp at this
          | cons y v => exact ⟨y, h.closed _ _ hm y (by simp), y :: v, hm, by simp⟩
    · rename_i ho
      have hI := ih (topoRest data (topoReady data)) (h.rest _) (by have := topoRest_length ho; omega)
      generalize topoLoop fuel (topoRest data (topoReady data)) = r at hI
      have hnotin : ∀ x ∈ r.1.flatten, x ∉ topoReady data := fun x hx => (keys_topoRest.1 (hI.keys x hx)).2
      have hsplit : ∀ {x v}, (x, v) ∈ data → x ∉ topoReady data → ∀ y ∈ v, y ∉ topoReady data →
          ∃ v', (x, v') ∈ topoRest data (topoReady data) ∧ y ∈ v' := by
        intro x v hm hx y hy hyo
        exact ⟨_, mem_topoRest.2 ⟨hx, v, hm, rfl⟩, by simp [hy, hyo]⟩
      refine ⟨?_, ?_, ?_, ?_, ?_, ?_, hI.fuel, ?_, ?_⟩
      · intro gr hgr
        rcases List.mem_cons.1 hgr with rfl | hgr
        · exact ho
        · exact hI.nonempty gr hgr
      · simp only [List.flatten_cons]
        rw [List.nodup_append]
        refine ⟨topoReady_nodup h.nd, hI.nodup, ?_⟩
        rintro a ha b hb rfl
        exact hnotin a hb ha
      · intro x hx
        simp only [List.flatten_cons, List.mem_append] at hx
        rcases hx with hx | hx
        · exact List.mem_map.2 ⟨(x, []), mem_topoReady.1 hx, rfl⟩
        · exact (keys_topoRest.1 (hI.keys x hx)).1
      · intro pre gr post e x hx v hm y hy
        cases pre with
        | nil =>
          simp only [List.nil_append, List.cons.injEq] at e
          obtain ⟨rfl, -⟩ := e
          rw [unique_of_nodup h.nd hm (mem_topoReady.1 hx)] at hy
          simp at hy
        | cons g0 pre =>
          simp only [List.cons_append, List.cons.injEq] at e
          obtain ⟨rfl, e⟩ := e
          simp only [List.flatten_cons, List.mem_append]
          by_cases hyo : y ∈ topoReady data
          · exact Or.inl hyo
          · right
            have hxo := hnotin x (by rw [e]; simp; exact Or.inr (Or.inl hx))
            obtain ⟨v', h1, h2⟩ := hsplit hm hxo y hy hyo
            exact hI.layered pre gr post e x hx v' h1 y h2
      · intro pre gr gr' post e x hx
        cases pre with
        | nil =>
          simp only [List.nil_append, List.cons.injEq] at e
          obtain ⟨rfl, e⟩ := e
          have hxm : x ∈ r.1.flatten := by rw [e]; simp [hx]
          have hk := hI.keys x hxm
          obtain ⟨⟨k, v'⟩, hm', rfl⟩ := List.mem_map.1 hk
          have hm'' := mem_topoRest.1 hm'
          obtain ⟨hxo, w, hw, rfl⟩ := hm''
          refine ⟨w, hw, ?_⟩
          apply Classical.byContradiction
          intro hno
          cases w with
          | nil => exact hxo (mem_topoReady.2 hw)
          | cons y w =>
            have hyo : y ∉ topoReady data := fun hyo => hno ⟨y, by simp, hyo⟩
            have := hI.layered [] gr' post (by simpa using e) _ hx _ hm' y (by simp [hyo])
            simp at this
        | cons g0 pre =>
          simp only [List.cons_append, List.cons.injEq] at e
          obtain ⟨rfl, e⟩ := e
          obtain ⟨v, h1, y, h2, h3⟩ := hI.tight pre gr gr' post e x hx
          obtain ⟨-, w, hw, rfl⟩ := mem_topoRest.1 h1
          simp only [List.mem_filter] at h2
          exact ⟨w, hw, y, h2.1, h3⟩
      · intro gr post e x hx hv
        simp only [List.cons.injEq] at e
        obtain ⟨rfl, -⟩ := e
        obtain ⟨⟨k, v⟩, hm, rfl⟩ := List.mem_map.1 hx
        have := hv v hm
        subst this
        exact mem_topoReady.2 hm
      · intro e x hx
        simp only [List.flatten_cons, List.mem_append]
        by_cases hxo : x ∈ topoReady data
        · exact Or.inl hxo
        · exact Or.inr (hI.done e x (keys_topoRest.2 ⟨hx, hxo⟩))
      · intro rest e
        obtain ⟨h1, h2⟩ := hI.cyclic rest e
        refine ⟨h1, ?_⟩
        intro x hx
        obtain ⟨h3, y, hy, v, hv, hyv⟩ := h2 x hx
        refine ⟨(keys_topoRest.1 h3).1, y, hy, ?_⟩
        obtain ⟨-, w, hw, rfl⟩ := mem_topoRest.1 hv
        simp only [List.mem_filter] at hyv
        exact ⟨w, hw, hyv.1⟩

theorem mem_topoData {g : Adj α} {x : α} {v : List α} :
    (x, v) ∈ topoData g ↔ (∃ w, (x, w) ∈ g ∧ v = sdiscard x w) ∨
      (v = [] ∧ x ∉ g.map Prod.fst ∧ ∃ k w, (k, w) ∈ g ∧ x ∈ w ∧ x ≠ k) := by
  unfold topoData
  simp only [List.mem_append, List.mem_map, List.mem_filter, mem_fromkeys, List.mem_flatMap, Prod.exists, Prod.mk.injEq,
    decide_eq_true_eq]
  constructor
  · rintro (⟨a, b, h1, rfl, rfl⟩ | ⟨a, ⟨⟨k, w, ⟨a', b', h1, rfl, rfl⟩, h2⟩, h3⟩, rfl, rfl⟩)
    · exact Or.inl ⟨b, h1, rfl⟩
    · right
      refine ⟨rfl, ?_, a', b', h1, by simpa using h2⟩
      rintro ⟨k', w', h4, rfl⟩
      exact h3 ⟨k', _, ⟨k', w', h4, rfl, rfl⟩, rfl⟩
  · rintro (⟨w, h1, rfl⟩ | ⟨rfl, h1, k, w, h2, h3, h4⟩)
    · exact Or.inl ⟨x, w, h1, rfl, rfl⟩
    · right
      refine ⟨x, ⟨⟨k, _, ⟨k, w, h2, rfl, rfl⟩, by simp [h3, h4]⟩, ?_⟩, rfl, rfl⟩
      rintro ⟨k', w', ⟨a, b, h5, rfl, -⟩, rfl⟩
      exact h1 ⟨_, b, h5, rfl⟩

theorem topoData_ok {g : Adj α} (h : (g.map Prod.fst).Nodup) : TopoOK (topoData g) where
  nd := by
    unfold topoData
    simp only [List.map_append, List.map_map]
    rw [List.nodup_append]
    have e1 : (Prod.fst ∘ fun kv : α × List α => (kv.1, sdiscard kv.1 kv.2)) = Prod.fst := rfl
    have e2 : (Prod.fst ∘ fun x : α => (x, ([] : List α))) = id := rfl
    rw [e1, e2, List.map_id]
    refine ⟨h, (nodup_fromkeys _).filter _, ?_⟩
    rintro a ha b hb rfl
    simp only [List.mem_filter, decide_eq_true_eq] at hb
    exact hb.2 ha
  closed := by
    intro x v hm y hy
    rw [List.mem_map]
    rcases mem_topoData.1 hm with ⟨w, h1, rfl⟩ | ⟨rfl, -⟩
    · simp only [mem_sdiscard] at hy
      by_cases hk : y ∈ g.map Prod.fst
      · obtain ⟨⟨k, w'⟩, h2, rfl⟩ := List.mem_map.1 hk
        exact ⟨(k, sdiscard k w'), mem_topoData.2 (Or.inl ⟨w', h2, rfl⟩), rfl⟩
      · exact ⟨(y, []), mem_topoData.2 (Or.inr ⟨rfl, hk, x, w, h1, hy.1, hy.2⟩), rfl⟩
    · simp at hy

/-- A finite nonempty set has an element without successor in it, for a transitive irreflexive relation. -/
theorem exists_sink (T : α → α → Prop) (ht : ∀ {a b c}, T a b → T b c → T a c) (hi : ∀ a, ¬ T a a) (l : List α)
    (h : l ≠ []) : ∃ x ∈ l, ∀ y ∈ l, ¬ T x y := by
  induction l with
  | nil => exact absurd rfl h
  | cons a l ih =>
    by_cases hl : l = []
    · subst hl; exact ⟨a, by simp, by simpa using hi a⟩
    · obtain ⟨x, hx, hs⟩ := ih hl
      by_cases hxa : T x a
      · refine ⟨a, by simp, ?_⟩
        intro y hy
        rcases List.mem_cons.1 hy with rfl | hy
        · exact hi _
        · exact fun hay => hs y hy (ht hxa hay)
      · refine ⟨x, by simp [hx], ?_⟩
        intro y hy
        rcases List.mem_cons.1 hy with rfl | hy
        · exact hxa
        · exact hs y hy

end Verif.Graph
