import Verif.Utils.DefaultDictLemmas
/-
Property C121: a DefaultOrderedDict enters an empty list for a key that it does not have, and copies of it behave as the original.
-/
set_option linter.unusedSectionVars false
namespace Verif.Props
open Verif Verif.Utils

variable {K V : Type} [DecidableEq K]

/-- The dictionary is there and its `default_factory` can be called -/
def HasDefault (w : Store K V) (d : Nat) : Prop := ∃ o, w.dicts[d]? = some o ∧ o.factory = true

/-- The three ways to copy a dictionary -/
inductive Way where
  | copy | deepcopy | pickle

/-- the call -/
def Way.of : Way → Nat → DCall K V
  | .copy, d => .copy d
  | .deepcopy, d => .deepcopy d
  | .pickle, d => .pickle d

/-- What can be done with one dictionary -/
inductive Own (K V : Type) where
  | get (k : K)
  | append (k : K) (x : V)
  | assign (k : K) (l : List V)
  | pop (k : K)

/-- the call, aimed at the dictionary d -/
def Own.on (d : Nat) : Own K V → DCall K V
  | .get k => .get d k
  | .append k x => .append d k x
  | .assign k l => .assign d k l
  | .pop k => .pop d k

/-- no two keys of the dictionary hold the same list -/
def NoListTwice (w : Store K V) (d : Nat) : Prop := ∀ k k', w.Same d k d k' → k = k'

/-! ## Lookup -/

theorem view_some {w : Store K V} {d : Nat} {v : List (K × List V)} (h : w.view d = some v) :
    ∃ o, w.dicts[d]? = some o ∧ v = o.items.map (fun kv => (kv.1, w.listAt kv.2)) := by
  unfold Store.view at h
  cases ho : w.dicts[d]? with
  | none => rw [ho] at h; cases h
  | some o => rw [ho] at h; cases h; exact ⟨o, rfl, rfl⟩

theorem view_of {w : Store K V} {d : Nat} {o : DictObj K} (h : w.dicts[d]? = some o) :
    w.view d = some (o.items.map (fun kv => (kv.1, w.listAt kv.2))) := by
  unfold Store.view; rw [h]; rfl

theorem dset_new {β : Type} (d : Dict K β) {k : K} (v : β) (h : k ∉ dkeys d) : dset d k v = d ++ [(k, v)] := by
  induction d with
  | nil => rfl
  | cons kv t ih =>
    simp only [dkeys, List.map_cons, List.mem_cons, not_or] at h
    have : kv.1 ≠ k := fun e => h.1 e.symm
    simp only [dset, this, if_false, List.cons_append]
    rw [ih h.2]

/-- C121: looking up a key that is there gives its list and changes nothing -/
theorem C121_lookup_known {w : Store K V} (hw : Reachable w) {d : Nat} {v : List (K × List V)} (hv : w.view d = some v)
    {k : K} {l : List V} (hk : (k, l) ∈ v) : w.call (.get d k) = (.ok l, w) := by
  obtain ⟨o, ho, rfl⟩ := view_some hv
  obtain ⟨kv, hm, e⟩ := List.mem_map.1 hk
  cases e
  have := dget_of_mem (hw.wf.get ho).keys (k := kv.1) (v := kv.2) hm
  simp only [Store.call, Store.get, ho, this]

/-- C121: looking up a key that is not there gives an empty list, which is entered at the end; no other dictionary changes. Without
a factory: TypeError, and nothing changes. -/
theorem C121_lookup_missing {w : Store K V} (hw : Reachable w) {d : Nat} {v : List (K × List V)} (hv : w.view d = some v)
    {k : K} (hk : k ∉ v.map Prod.fst) :
    (HasDefault w d → (w.call (.get d k)).1 = .ok [] ∧ (w.call (.get d k)).2.view d = some (v ++ [(k, [])]) ∧
      ∀ e, e ≠ d → (w.call (.get d k)).2.view e = w.view e) ∧
    (¬ HasDefault w d → w.call (.get d k) = (.error .typeError, w)) := by
  obtain ⟨o, ho, rfl⟩ := view_some hv
  have hk' : k ∉ dkeys o.items := by
    intro h
    apply hk
    obtain ⟨kv, hm, e⟩ := List.mem_map.1 h
    exact List.mem_map.2 ⟨_, List.mem_map.2 ⟨kv, hm, rfl⟩, e⟩
  have hg := (dget_none_iff o.items k).2 hk'
  have hold : ∀ (e : Nat) (o' : DictObj K), w.dicts[e]? = some o' → o'.items.map (fun kv => (kv.1, (w.lists ++ [[]]).getD kv.2 [])) =
      o'.items.map (fun kv => (kv.1, w.listAt kv.2)) := by
    intro e o' ho'
    apply List.map_congr_left
    intro kv hm
    rw [getD_append_left ((hw.wf.get ho').bound kv hm)]
    rfl
  constructor
  · rintro ⟨o', ho', hf⟩
    rw [ho] at ho'; cases ho'
    have hlt : d < w.dicts.length := by
      rcases Nat.lt_or_ge d w.dicts.length with h | h
      · exact h
      · rw [List.getElem?_eq_none h] at ho; cases ho
    simp only [Store.call, Store.get, ho, hg, hf, if_true, Store.newList, Store.setDict]
    refine ⟨?_, ?_, ?_⟩
    · simp [Store.listAt, List.getD_eq_getElem?_getD]
    · unfold Store.view
      simp only [List.getElem?_set, hlt, if_true, Option.map_some, dset_new _ _ hk', Store.listAt]
      rw [List.map_append, hold d o ho]
      simp [Store.listAt, List.getD_eq_getElem?_getD]
    · intro e he
      have he' : d ≠ e := fun h => he h.symm
      unfold Store.view
      simp only [List.getElem?_set_ne he']
      cases ho' : w.dicts[e]? with
      | none => rfl
      | some o' => simp only [Option.map_some, Store.listAt]; rw [hold e o' ho']; rfl
  · intro hn
    have hf : o.factory = false := by
      cases h : o.factory with
      | false => rfl
      | true => exact absurd ⟨o, ho, h⟩ hn
    simp only [Store.call, Store.get, ho, hg, hf]
    rfl

/-! ## What a copy looks like -/

/-- the dictionary that a copy makes -/
theorem way_spec {w : Store K V} (hw : WF w) {d : Nat} {o : DictObj K} (ho : w.dicts[d]? = some o) (m : Way)
    (hok : (w.call (m.of d)).1 = .ok []) :
    ∃ E items f, (w.call (m.of d)).2 = ⟨w.lists ++ E, w.dicts ++ [⟨items, f⟩]⟩ ∧
      ((m = .pickle ∧ f = false) ∨ (m ≠ .pickle ∧ f = o.factory)) ∧ ObjOk (w.lists ++ E).length (⟨items, f⟩ : DictObj K) ∧
      dkeys items = dkeys o.items ∧
      items.map (fun kv => (kv.1, (w.lists ++ E).getD kv.2 [])) = o.items.map (fun kv => (kv.1, w.listAt kv.2)) ∧
      (m = .copy → items = o.items) ∧
      (m ≠ .copy → ∀ kv ∈ items, w.lists.length ≤ kv.2) ∧
      (m = .deepcopy → (items.map Prod.snd).Nodup) ∧
      (m = .pickle → ∃ memo : Dict Nat Nat, (∀ a a' b, dget memo a = some b → dget memo a' = some b → a = a') ∧
        items.map (fun kv => (kv.1, some kv.2)) = o.items.map (fun kv => (kv.1, dget memo kv.2))) := by
  cases m with
  | copy =>
    refine ⟨[], o.items, o.factory, ?_, Or.inr ⟨by simp, rfl⟩, ?_, rfl, ?_, fun _ => rfl, by simp, by simp, by simp⟩
    · simp [Way.of, Store.call, ho, Store.newDict]
    · rw [List.append_nil]; exact hw.get ho
    · rw [List.append_nil]; rfl
  | deepcopy =>
    obtain ⟨⟨E, hE⟩, h2, h3, h4, h5⟩ := deepItems_spec o.items w.lists (hw.get ho).bound
    refine ⟨E, (deepItems o.items w.lists).1, o.factory, ?_, Or.inr ⟨by simp, rfl⟩, ?_, h2, ?_, by simp, fun _ kv hk => (h3 kv hk).1,
      fun _ => h4, by simp⟩
    · simp only [Way.of, Store.call, ho, Store.newDict, hE]
    · rw [← hE]; exact deep_ok hw ho
    · rw [← hE]; exact h5
  | pickle =>
    have hf : o.factory = true := by
      cases h : o.factory with
      | true => rfl
      | false => simp [Way.of, Store.call, ho, h] at hok
    obtain ⟨E, memo, h1, h2, h3, h4⟩ := pickle_spec hw ho
    refine ⟨E, (pickleItems o.items [] w.lists).1, false, ?_, Or.inl ⟨rfl, rfl⟩,
      ⟨?_, fun kv hk => ?_⟩, h2, ?_, by simp, fun _ kv hk => (pickle_bound hw ho kv hk).1, by simp,
      fun _ => ⟨memo, h3.inj, h4⟩⟩
    · simp only [Way.of, Store.call, ho, Store.newDict, hf, if_true, h1]
    · show (dkeys _).Nodup
      rw [h2]; exact (hw.get ho).keys
    · rw [← h1]; exact (pickle_bound hw ho kv hk).2
    · have : (pickleItems o.items [] w.lists).1.map (fun kv => (kv.1, (w.lists ++ E).getD kv.2 [])) =
          ((pickleItems o.items [] w.lists).1.map (fun kv => (kv.1, some kv.2))).map
            (fun x => (x.1, (w.lists ++ E).getD (x.2.getD 0) [])) := by
        rw [List.map_map]; rfl
      rw [this, h4, List.map_map]
      apply List.map_congr_left
      intro kv hk
      have hmem : (kv.1, dget memo kv.2) ∈ (pickleItems o.items [] w.lists).1.map (fun kv => (kv.1, some kv.2)) := by
        rw [h4]; exact List.mem_map.2 ⟨kv, hk, rfl⟩
      obtain ⟨kv', -, e⟩ := List.mem_map.1 hmem
      have e2 : dget memo kv.2 = some kv'.2 := (Prod.mk.inj e).2.symm
      simp only [Function.comp, e2, Option.getD_some]
      rw [h3.same _ _ e2, getD_append_left ((hw.get ho).bound kv hk)]
      rfl

theorem way_ok {w : Store K V} {d : Nat} {v : List (K × List V)} (hv : w.view d = some v) (m : Way) :
    (w.call (m.of d)).1 = .ok [] ∨ (m = .pickle ∧ ¬ HasDefault w d ∧ w.call (m.of d) = (.error .typeError, w)) := by
  obtain ⟨o, ho, -⟩ := view_some hv
  cases m with
  | copy => left; simp [Way.of, Store.call, ho]
  | deepcopy => left; simp [Way.of, Store.call, ho]
  | pickle =>
    cases h : o.factory with
    | true => left; simp [Way.of, Store.call, ho, h]
    | false =>
      right
      refine ⟨rfl, ?_, by simp [Way.of, Store.call, ho, h]⟩
      rintro ⟨o', ho', hf⟩
      rw [ho] at ho'; cases ho'
      rw [h] at hf; cases hf

/-- C121: a dictionary can be copied in each of the three ways, unless it has no factory and is pickled (TypeError). The copy is a new
dictionary, it has the same keys with equal lists in the same order, and no other dictionary changes. -/
theorem C121_copies_are_equal {w : Store K V} (hw : Reachable w) {d : Nat} {v : List (K × List V)} (hv : w.view d = some v) (m : Way) :
    ((w.call (m.of d)).1 = .ok [] ∧ (w.call (m.of d)).2.dicts.length = w.dicts.length + 1 ∧
      (w.call (m.of d)).2.view w.dicts.length = some v ∧ ∀ e, e < w.dicts.length → (w.call (m.of d)).2.view e = w.view e) ∨
    (m = .pickle ∧ ¬ HasDefault w d ∧ w.call (m.of d) = (.error .typeError, w)) := by
  rcases way_ok hv m with hok | h
  · left
    obtain ⟨o, ho, rfl⟩ := view_some hv
    obtain ⟨E, items, f, h1, -, -, -, h4, -⟩ := way_spec hw.wf ho m hok
    refine ⟨hok, by rw [h1]; simp, ?_, ?_⟩
    · rw [h1]
      unfold Store.view
      simp only [List.getElem?_append_right (Nat.le_refl _), Nat.sub_self, List.getElem?_cons_zero, Option.map_some, Store.listAt]
      rw [h4]
      rfl
    · intro e he
      rw [h1]
      unfold Store.view
      simp only [List.getElem?_append_left he]
      cases ho' : w.dicts[e]? with
      | none => rfl
      | some o' =>
        simp only [Option.map_some, Store.listAt]
        congr 1
        apply List.map_congr_left
        intro kv hm
        rw [getD_append_left ((hw.wf.get ho').bound kv hm)]
  · right; exact h

/-! ## What is shared -/

/-- C121: `copy` is shallow: the copy holds the very same lists -/
theorem C121_copy_shares {w : Store K V} {d : Nat} {v : List (K × List V)} (hv : w.view d = some v) {k k' : K} :
    (w.call (.copy d)).2.Same d k w.dicts.length k' ↔ w.Same d k d k' := by
  obtain ⟨o, ho, -⟩ := view_some hv
  have hlt : d < w.dicts.length := by
    rcases Nat.lt_or_ge d w.dicts.length with h | h
    · exact h
    · rw [List.getElem?_eq_none h] at ho; cases ho
  simp only [Store.call, ho, Store.newDict, Store.Same, List.getElem?_append_left hlt, List.getElem?_append_right (Nat.le_refl _),
    Nat.sub_self, List.getElem?_cons_zero]

open Classical in
/-- C121: `d[k].append(x)` for a key that is there adds x to the list in every place where that list is, in whatever dictionary, and
nothing else changes -/
theorem C121_append_where_shared {w : Store K V} (hw : Reachable w) {d : Nat} {k : K} (hk : w.Same d k d k) (x : V) (e : Nat) :
    (w.call (.append d k x)).1 = .ok [] ∧
    (w.call (.append d k x)).2.view e =
      (w.view e).map (fun v => v.map (fun kl => if w.Same d k e kl.1 then (kl.1, kl.2 ++ [x]) else kl)) := by
  obtain ⟨o, -, a, ho, -, hg, -⟩ := hk
  have hcall : w.call (.append d k x) = (.ok [], w.appendTo a x) := by simp only [Store.call, Store.get, ho, hg]
  rw [hcall]
  refine ⟨rfl, ?_⟩
  have hlt := (hw.wf.get ho).bound _ (mem_of_dget hg)
  unfold Store.view
  show (w.dicts[e]?).map _ = _
  cases ho' : w.dicts[e]? with
  | none => rfl
  | some o' =>
    simp only [Option.map_some, List.map_map, Option.some.injEq]
    apply List.map_congr_left
    intro kv hm
    have hget := dget_of_mem (hw.wf.get ho').keys (k := kv.1) (v := kv.2) hm
    simp only [Function.comp, listAt_appendTo]
    by_cases h : a = kv.2
    · subst h
      rw [if_pos ⟨rfl, hlt⟩, if_pos ⟨o, o', kv.2, ho, ho', hg, hget⟩]
    · rw [if_neg (fun h' => h h'.1), if_neg]
      rintro ⟨o1, o2, b, h1, h2, h3, h4⟩
      rw [ho] at h1; cases h1
      rw [ho'] at h2; cases h2
      rw [hg] at h3; cases h3
      rw [hget] at h4; cases h4
      exact h rfl

/-- a call that does not name a dictionary leaves its keys and which lists it holds -/
theorem obj_call {w : Store K V} {c : DCall K V} {e : Nat} (he : e < w.dicts.length) (hc : e ∉ c.names) :
    (w.call c).2.dicts[e]? = w.dicts[e]? ∧ w.dicts.length ≤ (w.call c).2.dicts.length := by
  have hget : ∀ d k, e ≠ d → (w.get d k).2.dicts[e]? = w.dicts[e]? ∧ (w.get d k).2.dicts.length = w.dicts.length := by
    intro d k hd
    unfold Store.get
    cases ho : w.dicts[d]? with
    | none => exact ⟨rfl, rfl⟩
    | some o =>
      cases hg : dget o.items k with
      | some a => simp only [hg]; exact ⟨trivial, trivial⟩
      | none =>
        simp only [hg]
        split
        · simp [Store.newList, Store.setDict, List.getElem?_set_ne (Ne.symm hd)]
        · exact ⟨rfl, rfl⟩
  have hput : ∀ (w : Store K V) d k a, e ≠ d → (w.put d k a).2.dicts[e]? = w.dicts[e]? ∧ (w.put d k a).2.dicts.length = w.dicts.length := by
    intro w d k a hd
    unfold Store.put
    cases ho : w.dicts[d]? with
    | none => exact ⟨rfl, rfl⟩
    | some o => simp [Store.setDict, List.getElem?_set_ne (Ne.symm hd)]
  cases c with
  | create => simp [Store.call, Store.newDict, List.getElem?_append_left he]
  | get d k =>
    simp only [DCall.names, List.mem_singleton] at hc
    have h := hget d k hc
    rcases hg : w.get d k with ⟨r, w'⟩
    rw [hg] at h
    simp only [Store.call, hg]
    cases r <;> exact ⟨h.1, Nat.le_of_eq h.2.symm⟩
  | append d k x =>
    simp only [DCall.names, List.mem_singleton] at hc
    have h := hget d k hc
    rcases hg : w.get d k with ⟨r, w'⟩
    rw [hg] at h
    simp only [Store.call, hg]
    cases r <;> exact ⟨h.1, Nat.le_of_eq h.2.symm⟩
  | assign d k l =>
    simp only [DCall.names, List.mem_singleton] at hc
    have h := hput (w.newList l).1 d k (w.newList l).2 hc
    exact ⟨h.1, Nat.le_of_eq h.2.symm⟩
  | share d k f k' =>
    simp only [DCall.names, List.mem_cons, List.not_mem_nil, or_false, not_or] at hc
    have h := hget f k' hc.2
    rcases hg : w.get f k' with ⟨r, w'⟩
    rw [hg] at h
    simp only [Store.call, hg]
    cases r with
    | error _ => exact ⟨h.1, Nat.le_of_eq h.2.symm⟩
    | ok a =>
      have h' := hput w' d k a hc.1
      exact ⟨h'.1.trans h.1, Nat.le_of_eq (h'.2.trans h.2).symm⟩
  | pop d k =>
    simp only [DCall.names, List.mem_singleton] at hc
    cases ho : w.dicts[d]? with
    | none => simp [Store.call, ho]
    | some o =>
      cases hg : dget o.items k with
      | none => simp [Store.call, ho, hg]
      | some a => simp [Store.call, ho, hg, Store.setDict, List.getElem?_set_ne (Ne.symm hc)]
  | copy d =>
    cases ho : w.dicts[d]? with
    | none => simp [Store.call, ho]
    | some o => simp [Store.call, ho, Store.newDict, List.getElem?_append_left he]
  | deepcopy d =>
    cases ho : w.dicts[d]? with
    | none => simp [Store.call, ho]
    | some o => simp [Store.call, ho, Store.newDict, List.getElem?_append_left he]
  | pickle d =>
    cases ho : w.dicts[d]? with
    | none => simp [Store.call, ho]
    | some o =>
      simp only [Store.call, ho]
      split
      · simp [Store.newDict, List.getElem?_append_left he]
      · exact ⟨rfl, Nat.le_refl _⟩

theorem obj_run (cs : List (DCall K V)) : ∀ {w : Store K V} {e : Nat}, e < w.dicts.length → (∀ c ∈ cs, e ∉ c.names) →
    (w.run cs).2.dicts[e]? = w.dicts[e]? := by
  induction cs with
  | nil => intro w e _ _; rfl
  | cons c cs ih =>
    intro w e he hc
    have h := obj_call he (hc c (List.mem_cons_self ..))
    exact (ih (Nat.lt_of_lt_of_le he h.2) (fun c' h' => hc c' (List.mem_cons_of_mem _ h'))).trans h.1

/-- C121: the keys of a dictionary, a copy or not, and their order change only by calls that name it -/
theorem C121_keys_are_its_own {w : Store K V} {e : Nat} {v : List (K × List V)} (hv : w.view e = some v) {cs : List (DCall K V)}
    (hcs : ∀ c ∈ cs, e ∉ c.names) : ∃ v', (w.run cs).2.view e = some v' ∧ v'.map Prod.fst = v.map Prod.fst := by
  obtain ⟨o, ho, rfl⟩ := view_some hv
  have hlt : e < w.dicts.length := by
    rcases Nat.lt_or_ge e w.dicts.length with h | h
    · exact h
    · rw [List.getElem?_eq_none h] at ho; cases ho
  have h := obj_run cs hlt hcs
  rw [ho] at h
  refine ⟨_, view_of h, ?_⟩
  simp [List.map_map, Function.comp_def]

/-- C121: a deep copy and an unpickled copy share nothing with what was there before. Whatever is done afterwards without naming the
copy is not seen in it; whatever is done with the copy, and dictionaries made later, is not seen in those that were there. -/
theorem C121_deep_copies_are_independent {w : Store K V} (hw : Reachable w) {d : Nat} {v : List (K × List V)} (hv : w.view d = some v)
    {m : Way} (hm : m ≠ .copy) (hok : (w.call (m.of d)).1 = .ok []) (cs : List (DCall K V)) :
    ((∀ c ∈ cs, w.dicts.length ∉ c.names) → ((w.call (m.of d)).2.run cs).2.view w.dicts.length = some v) ∧
    ((∀ c ∈ cs, ∀ i ∈ c.names, w.dicts.length ≤ i) →
      ∀ e, e < w.dicts.length → ((w.call (m.of d)).2.run cs).2.view e = w.view e) := by
  have heq := (C121_copies_are_equal hw hv m).resolve_right (by
    rintro ⟨rfl, -, h⟩; rw [h] at hok; cases hok)
  have hwf := wf_call hw.wf (m.of d)
  obtain ⟨o, ho, -⟩ := view_some hv
  obtain ⟨E, items, f, h1, -, -, -, -, -, h6, -⟩ := way_spec hw.wf ho m hok
  have h6 := h6 hm
  have hold : ∀ i o', i < w.dicts.length → (w.call (m.of d)).2.dicts[i]? = some o' → ∀ kv ∈ o'.items, kv.2 < w.lists.length := by
    intro i o' hi ho' kv hk
    rw [h1] at ho'
    simp only [List.getElem?_append_left hi] at ho'
    exact (hw.wf.get ho').bound kv hk
  have hnew : ∀ i o', ¬ i < w.dicts.length → (w.call (m.of d)).2.dicts[i]? = some o' → ∀ kv ∈ o'.items, w.lists.length ≤ kv.2 := by
    intro i o' hi ho' kv hk
    rw [h1] at ho'
    simp only [List.getElem?_append_right (Nat.le_of_not_lt hi)] at ho'
    have := List.mem_of_getElem? ho'
    rw [List.mem_singleton] at this
    subst this
    exact h6 kv hk
  constructor
  · intro hcs
    have ha : Apart (w.call (m.of d)).2 (fun i => i = w.dicts.length) := by
      intro i j o1 o2 hi hj h1' h2' kv hk kv' hk'
      subst hi
      have hj' : j < w.dicts.length := by
        have : j < (w.call (m.of d)).2.dicts.length := by
          rcases Nat.lt_or_ge j (w.call (m.of d)).2.dicts.length with h | h
          · exact h
          · rw [List.getElem?_eq_none h] at h2'; cases h2'
        rw [heq.2.1] at this
        omega
      have a1 := hnew _ o1 (by omega) h1' kv hk
      have a2 := hold j o2 hj' h2' kv' hk'
      omega
    have hs := safe_run cs (by intro i hi; subst hi; rw [heq.2.1]; omega) hwf ha (fun c hc i hi e => hcs c hc (e ▸ hi))
    rw [hs.view rfl, heq.2.2.1]
  · intro hcs e he
    have ha : Apart (w.call (m.of d)).2 (fun i => i < w.dicts.length) := by
      intro i j o1 o2 hi hj h1' h2' kv hk kv' hk'
      have a1 := hold i o1 hi h1' kv hk
      have a2 := hnew j o2 hj h2' kv' hk'
      omega
    have hs := safe_run cs (by intro i hi; rw [heq.2.1]; omega) hwf ha (fun c hc i hi => by have := hcs c hc i hi; omega)
    rw [hs.view he, heq.2.2.2 e he]

/-! ## A copy behaves as the original -/

/-- two dictionaries that look alike: the same keys in the same order, equal lists, and the same keys hold the same list -/
structure Like (w : Store K V) (o : DictObj K) (w' : Store K V) (o' : DictObj K) : Prop where
  ok : ObjOk w.lists.length o
  ok' : ObjOk w'.lists.length o'
  keys : dkeys o'.items = dkeys o.items
  lists : ∀ k a b, dget o.items k = some a → dget o'.items k = some b → w'.listAt b = w.listAt a
  pattern : ∀ k k' a a' b b', dget o.items k = some a → dget o.items k' = some a' → dget o'.items k = some b →
    dget o'.items k' = some b' → (a = a' ↔ b = b')
  fac : o'.factory = true → o.factory = true

theorem Like.view {w w' : Store K V} {o o' : DictObj K} (h : Like w o w' o') :
    o'.items.map (fun kv => (kv.1, w'.listAt kv.2)) = o.items.map (fun kv => (kv.1, w.listAt kv.2)) := by
  have aux : ∀ (xs ys : Dict K Nat), dkeys ys = dkeys xs → (dkeys xs).Nodup →
      (∀ k a b, dget xs k = some a → dget ys k = some b → w'.listAt b = w.listAt a) →
      ys.map (fun kv => (kv.1, w'.listAt kv.2)) = xs.map (fun kv => (kv.1, w.listAt kv.2)) := by
    intro xs
    induction xs with
    | nil =>
      intro ys he _ _
      cases ys with
      | nil => rfl
      | cons _ _ => cases he
    | cons x t ih =>
      intro ys he hn hl
      cases ys with
      | nil => cases he
      | cons y s =>
        obtain ⟨k, a⟩ := x
        obtain ⟨k', b⟩ := y
        simp only [dkeys, List.map_cons, List.cons.injEq] at he
        obtain ⟨rfl, he⟩ := he
        simp only [dkeys, List.map_cons, List.nodup_cons] at hn
        simp only [List.map_cons]
        rw [hl k' a b (by simp [dget]) (by simp [dget])]
        congr 1
        apply ih s he hn.2
        intro q c e hc he'
        have hq : k' ≠ q := by
          rintro rfl
          exact hn.1 ((mem_dkeys_iff t k').2 ⟨c, hc⟩)
        exact hl q c e (by simp [dget, hq, hc]) (by simp [dget, hq, he'])
  exact aux _ _ h.keys h.ok.keys h.lists

theorem Like.dget_iff {w w' : Store K V} {o o' : DictObj K} (h : Like w o w' o') (k : K) :
    dget o'.items k = none ↔ dget o.items k = none := by
  rw [dget_none_iff, dget_none_iff, h.keys]

/-- setting a key to a new list on both sides -/
theorem Like.put {w w' : Store K V} {o o' : DictObj K} (h : Like w o w' o') (k : K) (l : List V) {ds ds' : List (DictObj K)} :
    Like ⟨w.lists ++ [l], ds⟩ { o with items := dset o.items k w.lists.length }
      ⟨w'.lists ++ [l], ds'⟩ { o' with items := dset o'.items k w'.lists.length } := by
  have new : ∀ L : List (List V), (L ++ [l]).getD L.length [] = l := fun L => by
    have := getD_append_length (L := L) l []
    rwa [List.append_nil] at this
  have okAux : ∀ (n : Nat) (o : DictObj K), ObjOk n o → ObjOk (n + 1) { o with items := dset o.items k n } := by
    intro n o ho
    refine ⟨nodup_dkeys_dset ho.keys _ _, fun kv hk => ?_⟩
    rcases mem_dset hk with ⟨-, e⟩ | hm
    · rw [e]; omega
    · have := ho.bound _ hm; omega
  constructor
  · have := okAux _ o h.ok; simpa using this
  · have := okAux _ o' h.ok'; simpa using this
  · simp only [dkeys_dset, h.keys]
  · intro q a b ha hb
    simp only [dget_dset] at ha hb
    unfold Store.listAt
    split at ha
    · next e =>
      rw [if_pos e] at hb
      cases ha; cases hb
      rw [new, new]
    · next e =>
      rw [if_neg e] at hb
      rw [getD_append_left (h.ok.bound _ (mem_of_dget ha)), getD_append_left (h.ok'.bound _ (mem_of_dget hb))]
      exact h.lists q a b ha hb
  · intro q q' a a' b b' ha ha' hb hb'
    simp only [dget_dset] at ha ha' hb hb'
    by_cases e : k = q <;> by_cases e' : k = q'
    · rw [if_pos e] at ha hb; rw [if_pos e'] at ha' hb'
      cases ha; cases ha'; cases hb; cases hb'
      simp
    · rw [if_pos e] at ha hb; rw [if_neg e'] at ha' hb'
      cases ha; cases hb
      have a1 := h.ok.bound _ (mem_of_dget ha')
      have a2 := h.ok'.bound _ (mem_of_dget hb')
      simp only at a1 a2
      constructor <;> intro _ <;> omega
    · rw [if_neg e] at ha hb; rw [if_pos e'] at ha' hb'
      cases ha'; cases hb'
      have a1 := h.ok.bound _ (mem_of_dget ha)
      have a2 := h.ok'.bound _ (mem_of_dget hb)
      simp only at a1 a2
      constructor <;> intro _ <;> omega
    · rw [if_neg e] at ha hb; rw [if_neg e'] at ha' hb'
      exact h.pattern q q' a a' b b' ha ha' hb hb'
  · exact h.fac

/-- the two dictionaries, by their numbers -/
def LikeAt (w : Store K V) (d : Nat) (w' : Store K V) (c : Nat) : Prop :=
  ∃ o o', w.dicts[d]? = some o ∧ w'.dicts[c]? = some o' ∧ Like w o w' o'

/-- both have the same factory -/
def SameFactory (w : Store K V) (d : Nat) (w' : Store K V) (c : Nat) : Prop :=
  ∀ o o', w.dicts[d]? = some o → w'.dicts[c]? = some o' → o'.factory = o.factory

theorem lt_of_some {α : Type} {l : List α} {i : Nat} {a : α} (h : l[i]? = some a) : i < l.length := by
  rcases Nat.lt_or_ge i l.length with h' | h'
  · exact h'
  · rw [List.getElem?_eq_none h'] at h; cases h

theorem get_set_self {α : Type} {l : List α} {i : Nat} {a b : α} (h : l[i]? = some a) : (l.set i b)[i]? = some b := by
  simp [lt_of_some h]

/-- a lookup on both sides -/
theorem like_get {w w' : Store K V} {d c : Nat} (h : LikeAt w d w' c) (k : K)
    (hf : SameFactory w d w' c ∨ (w'.get c k).1 ≠ .error .typeError) :
    (∃ e, w.get d k = (.error e, w) ∧ w'.get c k = (.error e, w')) ∨
    (∃ a b o o', (w.get d k).1 = .ok a ∧ (w'.get c k).1 = .ok b ∧ (w.get d k).2.dicts[d]? = some o ∧
      (w'.get c k).2.dicts[c]? = some o' ∧ Like (w.get d k).2 o (w'.get c k).2 o' ∧
      dget o.items k = some a ∧ dget o'.items k = some b ∧
      (SameFactory w d w' c → SameFactory (w.get d k).2 d (w'.get c k).2 c)) := by
  obtain ⟨o, o', ho, ho', hl⟩ := h
  cases hg : dget o.items k with
  | some a =>
    cases hg' : dget o'.items k with
    | none => rw [hl.dget_iff, hg] at hg'; cases hg'
    | some b =>
      right
      have h1 : w.get d k = (.ok a, w) := by simp only [Store.get, ho, hg]
      have h2 : w'.get c k = (.ok b, w') := by simp only [Store.get, ho', hg']
      rw [h1, h2]
      exact ⟨a, b, o, o', rfl, rfl, ho, ho', hl, hg, hg', id⟩
  | none =>
    have hg' := (hl.dget_iff k).2 hg
    rcases hb : o.factory with _ | _ <;> rcases hb' : o'.factory with _ | _
    · left
      refine ⟨.typeError, ?_, ?_⟩
      · simp only [Store.get, ho, hg, hb]; rfl
      · simp only [Store.get, ho', hg', hb']; rfl
    · have := hl.fac hb'
      rw [hb] at this; cases this
    · exfalso
      have h2 : w'.get c k = (.error .typeError, w') := by simp only [Store.get, ho', hg', hb']; rfl
      rcases hf with hf | hf
      · have := hf o o' ho ho'
        rw [hb, hb'] at this; cases this
      · rw [h2] at hf; exact hf rfl
    · right
      have h1 : w.get d k = (.ok w.lists.length, ⟨w.lists ++ [[]], w.dicts.set d ⟨dset o.items k w.lists.length, true⟩⟩) := by
        simp only [Store.get, ho, hg, hb, if_true, Store.newList, Store.setDict]
      have h2 : w'.get c k = (.ok w'.lists.length, ⟨w'.lists ++ [[]], w'.dicts.set c ⟨dset o'.items k w'.lists.length, true⟩⟩) := by
        simp only [Store.get, ho', hg', hb', if_true, Store.newList, Store.setDict]
      rw [h1, h2]
      refine ⟨_, _, _, _, rfl, rfl, get_set_self ho, get_set_self ho', ?_, ?_, ?_, ?_⟩
      · have := hl.put k [] (ds := w.dicts.set d ⟨dset o.items k w.lists.length, true⟩)
          (ds' := w'.dicts.set c ⟨dset o'.items k w'.lists.length, true⟩)
        simpa only [hb, hb'] using this
      · simp [dget_dset]
      · simp [dget_dset]
      · intro _ p p' hp hp'
        simp only at hp hp'
        rw [get_set_self ho] at hp
        rw [get_set_self ho'] at hp'
        cases hp; cases hp'; rfl

theorem like_listAt {w w' : Store K V} {o o' : DictObj K} (h : Like w o w' o') {k : K} {a b : Nat} (ha : dget o.items k = some a)
    (hb : dget o'.items k = some b) (x : V) : Like (w.appendTo a x) o (w'.appendTo b x) o' where
  ok := h.ok.mono (by simp [Store.appendTo])
  ok' := h.ok'.mono (by simp [Store.appendTo])
  keys := h.keys
  lists q a' b' ha' hb' := by
    have e := h.pattern k q a a' b b' ha ha' hb hb'
    have l1 := h.ok.bound _ (mem_of_dget ha')
    have l2 := h.ok'.bound _ (mem_of_dget hb')
    simp only at l1 l2
    rw [listAt_appendTo, listAt_appendTo]
    by_cases h1 : a = a'
    · rw [if_pos ⟨e.1 h1, l2⟩, if_pos ⟨h1, l1⟩, h.lists q a' b' ha' hb']
    · rw [if_neg (fun h' => h1 (e.2 h'.1)), if_neg (fun h' => h1 h'.1), h.lists q a' b' ha' hb']
  pattern := h.pattern
  fac := h.fac

theorem dget_filter {d : Dict K Nat} {k q : K} : dget (d.filter (fun kv => decide (kv.1 ≠ k))) q = if q = k then none else dget d q := by
  induction d with
  | nil => simp [dget]
  | cons kv t ih =>
    by_cases h : kv.1 = k
    · have : ((kv :: t).filter (fun kv => decide (kv.1 ≠ k))) = t.filter (fun kv => decide (kv.1 ≠ k)) := by simp [h]
      rw [this, ih]
      by_cases e : q = k
      · simp [e]
      · have : kv.1 ≠ q := fun e' => e (e'.symm.trans h)
        simp [e, dget, this]
    · have : ((kv :: t).filter (fun kv => decide (kv.1 ≠ k))) = kv :: t.filter (fun kv => decide (kv.1 ≠ k)) := by simp [h]
      rw [this]
      simp only [dget, ih]
      by_cases e : kv.1 = q
      · have : q ≠ k := fun e' => h (e.trans e')
        simp [e, this]
      · simp [e]

theorem dkeys_filter (d : Dict K Nat) (k : K) :
    dkeys (d.filter (fun kv => decide (kv.1 ≠ k))) = (dkeys d).filter (fun q => decide (q ≠ k)) := by
  unfold dkeys
  rw [List.filter_map]
  rfl

/-- one call on both sides -/
theorem like_call {w w' : Store K V} {d c : Nat} (h : LikeAt w d w' c) (x : Own K V)
    (hf : SameFactory w d w' c ∨ (w'.call (x.on c)).1 ≠ .error .typeError) :
    (w'.call (x.on c)).1 = (w.call (x.on d)).1 ∧ LikeAt (w.call (x.on d)).2 d (w'.call (x.on c)).2 c ∧
    (SameFactory w d w' c → SameFactory (w.call (x.on d)).2 d (w'.call (x.on c)).2 c) := by
  cases x with
  | get k =>
    have hf' : SameFactory w d w' c ∨ (w'.get c k).1 ≠ .error .typeError := hf.imp id (fun h e => h (by
      rcases hg : w'.get c k with ⟨r, w''⟩
      rw [hg] at e
      cases e
      simp only [Own.on, Store.call, hg]))
    rcases like_get h k hf' with ⟨e, h1, h2⟩ | ⟨a, b, o, o', h1, h2, h3, h4, h5, h6, h7, h8⟩
    · simp only [Own.on, Store.call, h1, h2]
      exact ⟨trivial, h, id⟩
    · rcases hg : w.get d k with ⟨r, w1⟩
      rcases hg' : w'.get c k with ⟨r', w1'⟩
      rw [hg] at h1 h3 h5 h8
      rw [hg'] at h2 h4 h5 h8
      cases h1; cases h2
      simp only [Own.on, Store.call, hg, hg']
      exact ⟨by rw [h5.lists k a b h6 h7], ⟨o, o', h3, h4, h5⟩, h8⟩
  | append k x =>
    have hf' : SameFactory w d w' c ∨ (w'.get c k).1 ≠ .error .typeError := hf.imp id (fun h e => h (by
      rcases hg : w'.get c k with ⟨r, w''⟩
      rw [hg] at e
      cases e
      simp only [Own.on, Store.call, hg]))
    rcases like_get h k hf' with ⟨e, h1, h2⟩ | ⟨a, b, o, o', h1, h2, h3, h4, h5, h6, h7, h8⟩
    · simp only [Own.on, Store.call, h1, h2]
      exact ⟨trivial, h, id⟩
    · rcases hg : w.get d k with ⟨r, w1⟩
      rcases hg' : w'.get c k with ⟨r', w1'⟩
      rw [hg] at h1 h3 h5 h8
      rw [hg'] at h2 h4 h5 h8
      cases h1; cases h2
      simp only [Own.on, Store.call, hg, hg']
      exact ⟨trivial, ⟨o, o', h3, h4, like_listAt h5 h6 h7 x⟩, h8⟩
  | assign k l =>
    obtain ⟨o, o', ho, ho', hl⟩ := h
    have h1 : w.call ((Own.assign k l).on d) = (.ok [], ⟨w.lists ++ [l], w.dicts.set d { o with items := dset o.items k w.lists.length }⟩) := by
      simp only [Own.on, Store.call, Store.newList, Store.put, ho, Store.setDict]
    have h2 : w'.call ((Own.assign k l).on c) = (.ok [], ⟨w'.lists ++ [l], w'.dicts.set c { o' with items := dset o'.items k w'.lists.length }⟩) := by
      simp only [Own.on, Store.call, Store.newList, Store.put, ho', Store.setDict]
    rw [h1, h2]
    refine ⟨rfl, ⟨_, _, get_set_self ho, get_set_self ho', hl.put k l⟩, ?_⟩
    intro hs p p' hp hp'
    simp only at hp hp'
    rw [get_set_self ho] at hp
    rw [get_set_self ho'] at hp'
    cases hp; cases hp'
    exact hs o o' ho ho'
  | pop k =>
    have h0 := h
    obtain ⟨o, o', ho, ho', hl⟩ := h
    cases hg : dget o.items k with
    | none =>
      have hg' := (hl.dget_iff k).2 hg
      simp only [Own.on, Store.call, ho, ho', hg, hg']
      exact ⟨trivial, h0, id⟩
    | some a =>
      cases hg' : dget o'.items k with
      | none => rw [hl.dget_iff, hg] at hg'; cases hg'
      | some b =>
        simp only [Own.on, Store.call, ho, ho', hg, hg', Store.setDict]
        refine ⟨by rw [hl.lists k a b hg hg'], ⟨_, _, get_set_self ho, get_set_self ho', ?_⟩, ?_⟩
        · constructor
          · exact ⟨List.Sublist.nodup (List.Sublist.map _ List.filter_sublist) hl.ok.keys,
              fun kv hk => hl.ok.bound _ (List.mem_filter.1 hk).1⟩
          · exact ⟨List.Sublist.nodup (List.Sublist.map _ List.filter_sublist) hl.ok'.keys,
              fun kv hk => hl.ok'.bound _ (List.mem_filter.1 hk).1⟩
          · simp only [dkeys_filter, hl.keys]
          · intro q a b ha hb
            simp only [dget_filter] at ha hb
            split at ha
            · cases ha
            · next e => rw [if_neg e] at hb; exact hl.lists q a b ha hb
          · intro q q' a a' b b' ha ha' hb hb'
            simp only [dget_filter] at ha ha' hb hb'
            split at ha
            · cases ha
            · next e =>
              split at ha'
              · cases ha'
              · next e' =>
                rw [if_neg e] at hb
                rw [if_neg e'] at hb'
                exact hl.pattern q q' a a' b b' ha ha' hb hb'
          · exact hl.fac
        · intro hs p p' hp hp'
          rw [get_set_self ho] at hp
          rw [get_set_self ho'] at hp'
          cases hp; cases hp'
          exact hs o o' ho ho'

theorem like_run (xs : List (Own K V)) : ∀ {w w' : Store K V} {d c : Nat}, LikeAt w d w' c →
    (SameFactory w d w' c ∨ ∀ r ∈ (w'.run (xs.map (Own.on c))).1, r ≠ .error .typeError) →
    (w'.run (xs.map (Own.on c))).1 = (w.run (xs.map (Own.on d))).1 ∧
    (w'.run (xs.map (Own.on c))).2.view c = (w.run (xs.map (Own.on d))).2.view d := by
  induction xs with
  | nil =>
    rintro w w' d c ⟨o, o', ho, ho', hl⟩ -
    refine ⟨rfl, ?_⟩
    show w'.view c = w.view d
    rw [view_of ho, view_of ho', hl.view]
  | cons x xs ih =>
    intro w w' d c h hf
    have h1 := like_call h x (hf.imp id (fun h => h _ (List.mem_cons_self ..)))
    have h2 := ih h1.2.1 (hf.imp h1.2.2 (fun h r hr => h r (List.mem_cons_of_mem _ hr)))
    simp only [List.map_cons, Store.run]
    exact ⟨by rw [h1.1, h2.1], h2.2⟩

/-- a value by key, through a map over the items -/
theorem dget_map_val {β γ : Type} (f : β → γ) (d : Dict K β) (k : K) : dget (d.map (fun kv => (kv.1, f kv.2))) k = (dget d k).map f := by
  induction d with
  | nil => rfl
  | cons kv t ih =>
    simp only [List.map_cons, dget, ih]
    split <;> rfl

theorem snd_inj {d : Dict K Nat} (h : (d.map Prod.snd).Nodup) {k k' : K} {b : Nat} (h1 : (k, b) ∈ d) (h2 : (k', b) ∈ d) : k = k' := by
  induction d with
  | nil => cases h1
  | cons kv t ih =>
    simp only [List.map_cons, List.nodup_cons] at h
    rcases List.mem_cons.1 h1 with e1 | m1 <;> rcases List.mem_cons.1 h2 with e2 | m2
    · rw [← e1] at e2; exact (Prod.mk.inj e2).1.symm
    · exact absurd (List.mem_map.2 ⟨_, m2, by rw [← e1]⟩) h.1
    · exact absurd (List.mem_map.2 ⟨_, m1, by rw [← e2]⟩) h.1
    · exact ih h.2 m1 m2

/-- a copy looks like the original -/
theorem way_like {w : Store K V} (hw : WF w) {d : Nat} {o : DictObj K} (ho : w.dicts[d]? = some o) (m : Way)
    (hok : (w.call (m.of d)).1 = .ok []) (hn : m = .deepcopy → NoListTwice w d) :
    LikeAt w d (w.call (m.of d)).2 w.dicts.length ∧
      (m ≠ .pickle → SameFactory w d (w.call (m.of d)).2 w.dicts.length) := by
  obtain ⟨E, items, f, h1, h2, h3, h4, h5, h6, h7, h8, h9⟩ := way_spec hw ho m hok
  have hc : (w.call (m.of d)).2.dicts[w.dicts.length]? = some ⟨items, f⟩ := by rw [h1]; simp
  refine ⟨⟨o, ⟨items, f⟩, ho, hc, ?_⟩, ?_⟩
  · constructor
    · exact hw.get ho
    · rw [h1]; exact h3
    · exact h4
    · intro k a b ha hb
      have e1 := dget_map_val (fun b => (w.lists ++ E).getD b []) items k
      have e2 := dget_map_val (fun a => w.listAt a) o.items k
      rw [h5, e2] at e1
      simp only at ha hb
      rw [ha, hb] at e1
      simp only [Option.map_some, Option.some.injEq] at e1
      rw [h1]
      exact e1.symm
    · intro k k' a a' b b' ha ha' hb hb'
      simp only at hb hb'
      cases m with
      | copy =>
        rw [h6 rfl] at hb hb'
        rw [ha] at hb; rw [ha'] at hb'
        cases hb; cases hb'; exact Iff.rfl
      | deepcopy =>
        have hnd := h8 rfl
        have inj : b = b' → k = k' := by
          intro e
          subst e
          have m1 := mem_of_dget hb
          have m2 := mem_of_dget hb'
          exact snd_inj hnd m1 m2
        constructor
        · intro e
          subst e
          have := hn rfl k k' ⟨o, o, a, ho, ho, ha, ha'⟩
          subst this
          rw [hb] at hb'; cases hb'; rfl
        · intro e
          have := inj e
          subst this
          rw [ha] at ha'; cases ha'; rfl
      | pickle =>
        obtain ⟨memo, hi, he⟩ := h9 rfl
        have aux : ∀ q a b, dget o.items q = some a → dget items q = some b → dget memo a = some b := by
          intro q a b ha hb
          have e1 := dget_map_val (fun b => some b) items q
          have e2 := dget_map_val (fun a => dget memo a) o.items q
          rw [he, e2, ha, hb] at e1
          exact Option.some.inj e1
        have m1 := aux k a b ha hb
        have m2 := aux k' a' b' ha' hb'
        constructor
        · intro e; subst e; rw [m1] at m2; exact Option.some.inj m2
        · intro e; subst e; exact hi _ _ _ m1 m2
    · intro hf
      simp only at hf
      rcases h2 with ⟨-, e⟩ | ⟨-, e⟩
      · rw [e] at hf; cases hf
      · rw [← e]; exact hf
  · intro hm p p' hp hp'
    rw [ho] at hp; cases hp
    rw [hc] at hp'; cases hp'
    rcases h2 with ⟨e, -⟩ | ⟨-, e⟩
    · exact absurd e hm
    · exact e

/-- C121 (partial): a copy behaves as the original would have: the same calls get the same answers, and at the end the same keys are
there in the same order with equal lists. This holds for `copy` without conditions, for `deepcopy` if no two keys hold the same list,
and for a pickled and unpickled copy as long as no call is answered with TypeError. What is missing: `deepcopy` does not keep
that two keys hold the same list (`C121_deepcopy_violated`), and an unpickled dictionary has no factory (`C121_pickle_violated`). -/
theorem C121_copies_behave_alike_partial {w : Store K V} (hw : Reachable w) {d : Nat} {v : List (K × List V)} (hv : w.view d = some v)
    (m : Way) (hok : (w.call (m.of d)).1 = .ok []) (hn : m = .deepcopy → NoListTwice w d) (xs : List (Own K V))
    (hp : m = .pickle → ∀ r ∈ ((w.call (m.of d)).2.run (xs.map (Own.on w.dicts.length))).1, r ≠ .error .typeError) :
    ((w.call (m.of d)).2.run (xs.map (Own.on w.dicts.length))).1 = (w.run (xs.map (Own.on d))).1 ∧
    ((w.call (m.of d)).2.run (xs.map (Own.on w.dicts.length))).2.view w.dicts.length = (w.run (xs.map (Own.on d))).2.view d := by
  obtain ⟨o, ho, -⟩ := view_some hv
  obtain ⟨h1, h2⟩ := way_like hw.wf ho m hok hn
  refine like_run xs h1 ?_
  by_cases h : m = .pickle
  · right; exact hp h
  · left; exact h2 h

/-! ## Concrete cases -/

namespace DefaultDictExample

/-- `d = DefaultOrderedDict(list); d[1].append(10); d[0].append(20); d[2] = d[1]` -/
def calls : List (DCall Nat Nat) := [.create, .append 0 1 10, .append 0 0 20, .share 0 2 0 1]

def w : Store Nat Nat := (Store.empty.run calls).2

theorem reachable : Reachable w := ⟨calls, rfl⟩

/-- what the dictionary looks like; its factory can be called -/
example : w.view 0 = some [(1, [10]), (0, [20]), (2, [10])] ∧ HasDefault w 0 := ⟨by decide, ⟨_, rfl, rfl⟩⟩

/-- a lookup of a missing key enters it -/
example : (w.call (.get 0 7)).1 = .ok [] ∧ (w.call (.get 0 7)).2.view 0 = some [(1, [10]), (0, [20]), (2, [10]), (7, [])] := ⟨rfl, by decide⟩

/-- each of the three copies is made -/
example : ∀ m : Way, (w.call (m.of 0)).1 = .ok [] := by intro m; cases m <;> rfl

/-- without the shared list the conditions of `C121_copies_behave_alike_partial` are met for `deepcopy` -/
example : Reachable (Store.empty.run (calls.take 3)).2 ∧ NoListTwice (Store.empty.run (calls.take 3)).2 0 ∧
    (Store.empty.run (calls.take 3)).2.view 0 = some [(1, [10]), (0, [20])] := by
  refine ⟨⟨_, rfl⟩, ?_, by decide⟩
  rintro k k' ⟨o, o', a, h1, h2, h3, h4⟩
  have e : (Store.empty.run (calls.take 3)).2.dicts[0]? = some ⟨[(1, 0), (0, 1)], true⟩ := by decide
  rw [e] at h1 h2
  cases h1; cases h2
  have m1 := mem_of_dget h3
  have m2 := mem_of_dget h4
  simp only [List.mem_cons, List.not_mem_nil, or_false, Prod.mk.injEq] at m1 m2
  omega

/-- C121 fails for `deepcopy`: in the original, what is appended to d[1] is in d[2]; in the copy it is not -/
theorem C121_deepcopy_violated :
    (w.call (.append 0 1 30)).2.view 0 = some [(1, [10, 30]), (0, [20]), (2, [10, 30])] ∧
    ((w.call (.deepcopy 0)).2.call (.append 1 1 30)).2.view 1 = some [(1, [10, 30]), (0, [20]), (2, [10])] ∧
    ((w.call (.pickle 0)).2.call (.append 1 1 30)).2.view 1 = some [(1, [10, 30]), (0, [20]), (2, [10, 30])] := by decide

/-- C121 fails for pickle: looking up a missing key in the unpickled dictionary raises TypeError, and it cannot be pickled again -/
theorem C121_pickle_violated :
    (w.call (.get 0 7)).1 = .ok [] ∧ ((w.call (.pickle 0)).2.call (.get 1 7)).1 = .error .typeError ∧
    ((w.call (.pickle 0)).2.call (.pickle 1)).1 = .error .typeError := ⟨rfl, rfl, rfl⟩

/-- a shallow copy sees what is appended, but not which keys come and go -/
example : ((w.run [.copy 0, .append 0 1 30, .pop 0 0, .append 0 5 1]).2.view 1 = some [(1, [10, 30]), (0, [20]), (2, [10, 30])]) ∧
    (w.run [.deepcopy 0, .append 0 1 30, .pop 0 0, .append 0 5 1]).2.view 1 = some [(1, [10]), (0, [20]), (2, [10])] := by decide

end DefaultDictExample

end Verif.Props
