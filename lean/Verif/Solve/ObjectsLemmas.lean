import Verif.Solve.Objects
import Verif.Props.Constraints
import Verif.Props.History
import Mathlib.Data.List.Nodup
/-
The store of `Solve/Objects.lean`: what no call can break, and what each call does to each modifiers object.
-/
namespace Verif.Solve
open Verif Verif.Pkg Verif.Props

section
variable {N S U : Type}

/-- the places of all sets that belong to a modifiers object -/
def World.owned (w : World N S U) : List Nat := w.mods.flatMap ModsRefs.all

/-- No set belongs to two places, and what is referred to exists. -/
structure World.WF (w : World N S U) : Prop where
  nodup : w.owned.Nodup
  inRange : ∀ r ∈ w.owned, r < w.sets.length
  reqs : ∀ o ∈ w.requests, o.modifiers < w.mods.length
  pool : ∀ m, w.poolMods = some m → m < w.mods.length

theorem World.mem_owned {w : World N S U} {m : Nat} {r : ModsRefs} (h : w.mods[m]? = some r) {x : Nat} (hx : x ∈ r.all) :
    x ∈ w.owned := List.mem_flatMap.2 ⟨r, List.mem_of_getElem? h, hx⟩

theorem World.WF.nodup_all {w : World N S U} (hw : w.WF) {m : Nat} {r : ModsRefs} (h : w.mods[m]? = some r) : r.all.Nodup :=
  (List.nodup_flatMap.1 hw.nodup).1 r (List.mem_of_getElem? h)

theorem World.WF.fields {w : World N S U} (hw : w.WF) {m : Nat} {r : ModsRefs} (h : w.mods[m]? = some r) :
    r.newer ≠ r.any ∧ r.newer ≠ r.older ∧ r.any ≠ r.older := by
  have := hw.nodup_all h
  simp [ModsRefs.all] at this
  tauto

theorem World.WF.lt {w : World N S U} (hw : w.WF) {m : Nat} {r : ModsRefs} (h : w.mods[m]? = some r) :
    r.newer < w.sets.length ∧ r.any < w.sets.length ∧ r.older < w.sets.length :=
  ⟨hw.inRange _ (World.mem_owned h (by simp [ModsRefs.all])), hw.inRange _ (World.mem_owned h (by simp [ModsRefs.all])),
    hw.inRange _ (World.mem_owned h (by simp [ModsRefs.all]))⟩

theorem World.WF.disjoint {w : World N S U} (hw : w.WF) {m m' : Nat} {r r' : ModsRefs} (h : w.mods[m]? = some r)
    (h' : w.mods[m']? = some r') (hne : m ≠ m') {x : Nat} (hx : x ∈ r.all) : x ∉ r'.all := by
  have hp := (List.nodup_flatMap.1 hw.nodup).2
  obtain ⟨hm, e⟩ := List.getElem?_eq_some_iff.1 h
  obtain ⟨hm', e'⟩ := List.getElem?_eq_some_iff.1 h'
  intro hx'
  rcases Nat.lt_or_gt_of_ne hne with hl | hl
  · have := List.pairwise_iff_getElem.1 hp m m' hm hm' hl
    rw [e, e'] at this
    exact this hx hx'
  · have := List.pairwise_iff_getElem.1 hp m' m hm' hm hl
    rw [e, e'] at this
    exact this hx' hx

end

section
variable {N S U : Type} [DecidableEq N]

theorem World.setAt_set (w : World N S U) (r : Nat) (v : List N) (r' : Nat) :
    ({ w with sets := w.sets.set r v } : World N S U).setAt r' = if r = r' ∧ r < w.sets.length then v else w.setAt r' := by
  simp only [World.setAt, List.getD_eq_getElem?_getD, List.getElem?_set]
  split
  · rename_i h
    subst h
    split
    · rename_i h2; simp [h2]
    · rename_i h2; simp [h2]
  · rename_i h; simp [h]

theorem World.setAt_append (w : World N S U) (l : List (List N)) {r : Nat} (h : r < w.sets.length) :
    ({ w with sets := w.sets ++ l } : World N S U).setAt r = w.setAt r := by
  simp [World.setAt, List.getD_eq_getElem?_getD, List.getElem?_append_left h]

/-! ### Nothing breaks the order of the store -/

theorem World.WF.setSets {w : World N S U} (hw : w.WF) (r : Nat) (v : List N) :
    ({ w with sets := w.sets.set r v } : World N S U).WF :=
  ⟨hw.nodup, fun x hx => by simpa using hw.inRange x hx, hw.reqs, hw.pool⟩

theorem World.WF.addTo {w : World N S U} (hw : w.WF) (r : Nat) (x : N) : (w.addTo r x).WF := hw.setSets _ _

theorem World.WF.update {w : World N S U} (hw : w.WF) (r r' : ModsRefs) : (w.update r r').WF :=
  ((hw.setSets _ _).setSets _ _).setSets _ _

theorem World.WF.remove {w : World N S U} (hw : w.WF) (r : ModsRefs) (a : Names N) : (w.remove r a).WF :=
  ((hw.setSets _ _).setSets _ _).setSets _ _

theorem World.WF.asSet {w : World N S U} (hw : w.WF) (a : Names N) : (w.asSet a).1.WF :=
  ⟨hw.nodup, fun x hx => by
    have := hw.inRange x hx
    simp [World.asSet]; omega, hw.reqs, hw.pool⟩

theorem World.newModifiers_eq (w : World N S U) (a b c : Names N) :
    ∃ x y z, (w.newModifiers a b c).1 =
      { w with sets := w.sets ++ [x, y, z], mods := w.mods ++ [⟨w.sets.length, w.sets.length + 1, w.sets.length + 2⟩] } ∧
      (w.newModifiers a b c).2 = w.mods.length := by
  refine ⟨fromkeys (w.contents a), fromkeys ((w.asSet a).1.contents b), fromkeys (((w.asSet a).1.asSet b).1.contents c), ?_, rfl⟩
  · simp only [World.newModifiers, World.asSet, List.append_assoc, List.length_append, List.length_cons, List.length_nil,
      List.cons_append, List.nil_append]

theorem World.WF.newModifiers {w : World N S U} (hw : w.WF) (a b c : Names N) : (w.newModifiers a b c).1.WF := by
  obtain ⟨x, y, z, e, -⟩ := w.newModifiers_eq a b c
  rw [e]
  refine ⟨?_, ?_, ?_, ?_⟩
  · simp only [World.owned, List.flatMap_append, List.flatMap_cons, List.flatMap_nil, List.append_nil]
    refine List.Nodup.append hw.nodup (by simp [ModsRefs.all]) ?_
    intro r h1 h2
    have := hw.inRange r h1
    simp [ModsRefs.all] at h2
    omega
  · intro r hr
    simp only [World.owned, List.flatMap_append, List.flatMap_cons, List.flatMap_nil, List.append_nil, List.mem_append] at hr
    simp only [List.length_append, List.length_cons, List.length_nil]
    rcases hr with h | h
    · have := hw.inRange r h; omega
    · simp [ModsRefs.all] at h; omega
  · intro o ho
    have := hw.reqs o ho
    simp; omega
  · intro m hm
    have := hw.pool m hm
    simp; omega

theorem World.WF.newRequest {w : World N S U} (hw : w.WF) (m : Option Nat) (hm : ∀ k, m = some k → k < w.mods.length) :
    (w.newRequest m).WF := by
  cases m with
  | some k =>
    refine ⟨hw.nodup, hw.inRange, ?_, hw.pool⟩
    intro o ho
    simp only [World.newRequest, List.mem_append, List.mem_singleton] at ho
    rcases ho with h | rfl
    · exact hw.reqs o h
    · exact hm k rfl
  | none =>
    have h := hw.newModifiers (.list []) (.list []) (.list [])
    obtain ⟨x, y, z, e, e2⟩ := w.newModifiers_eq (.list []) (.list []) (.list [])
    refine ⟨h.nodup, h.inRange, ?_, h.pool⟩
    intro o ho
    simp only [World.newRequest, List.mem_append, List.mem_singleton] at ho
    rcases ho with k | rfl
    · exact h.reqs o k
    · show (w.newModifiers (.list []) (.list []) (.list [])).2 < (w.newModifiers (.list []) (.list []) (.list [])).1.mods.length
      rw [e, e2]; simp

theorem World.WF.setPool {w : World N S U} (hw : w.WF) {o : RequestObj N U} (ho : o ∈ w.requests) : (w.setPool o).WF := by
  refine ⟨hw.nodup, hw.inRange, hw.reqs, ?_⟩
  intro m hm
  simp only [World.setPool] at hm
  split at hm
  · split at hm
    · exact absurd hm (by simp)
    · simp at hm; subst hm; exact hw.reqs o ho
  · exact absurd hm (by simp)

end

section
variable {N S U : Type} [LinearOrder N] [DecidableEq S] [LinearOrder U] [Syntax S U]

theorem World.WF.onRequest {w : World N S U} (hw : w.WF) (q : Nat) {f : ModsRefs → World N S U} (hf : ∀ r, (f r).WF) :
    (w.onRequest q f).1.WF := by
  unfold World.onRequest
  split
  · exact hw
  · split
    · exact hw
    · exact hf _

theorem World.WF.step {w : World N S U} (hw : w.WF) (c : Call N S U) : (w.step c).1.WF := by
  cases c with
  | newSet a => exact hw.asSet _
  | addToSet r x => exact hw.addTo _ _
  | newModifiers a b c =>
    simp only [World.step]
    split
    · exact hw.newModifiers _ _ _
    · exact hw
  | newRequest m =>
    cases m with
    | none => exact hw.newRequest none (by simp)
    | some m =>
      simp only [World.step]
      split
      · rename_i h; exact hw.newRequest (some m) (by simpa using h)
      · exact hw
  | allowNewer q x => exact hw.onRequest q (fun r => hw.addTo _ _)
  | allowAny q x => exact hw.onRequest q (fun r => hw.addTo _ _)
  | allowOlder q x => exact hw.onRequest q (fun r => hw.addTo _ _)
  | update m m' =>
    simp only [World.step]
    split
    · exact hw.update _ _
    · exact hw
  | remove m a =>
    simp only [World.step]
    split
    · exact hw
    · split
      · exact hw
      · exact hw.remove _ _
  | addJob q r k =>
    simp only [World.step]
    split
    · exact hw
    · rename_i o ho
      split
      · exact hw
      · refine ⟨hw.nodup, hw.inRange, ?_, hw.pool⟩
        intro o' ho'
        rcases List.mem_or_eq_of_mem_set ho' with h | rfl
        · exact hw.reqs o' h
        · exact hw.reqs o (List.mem_of_getElem? ho)
  | setPoolModifiers m =>
    cases m with
    | none => exact ⟨hw.nodup, hw.inRange, hw.reqs, by simp [World.step]⟩
    | some m =>
      simp only [World.step]
      split
      · rename_i h
        exact ⟨hw.nodup, hw.inRange, hw.reqs, fun k hk => by
          have : m = k := by simpa using hk
          show k < w.mods.length
          omega⟩
      · exact hw
  | solve o q =>
    simp only [World.step]
    split
    · rename_i h _; exact hw.setPool (List.mem_of_getElem? h)
    · exact hw
  | solveWithHint o o' q =>
    simp only [World.step]
    split
    · rename_i h _; exact hw.setPool (List.mem_of_getElem? h)
    · exact hw
  | whatProvides r b => exact hw

theorem World.start_wf (s : DependencySolver N S U) : (World.start s).WF := by
  refine ⟨?_, ?_, ?_, ?_⟩ <;> simp [World.start, World.owned]

theorem World.WF.run : ∀ (cs : List (Call N S U)) {w : World N S U}, w.WF → (World.run cs w).WF
  | [], _, h => h
  | c :: cs, _, h => World.WF.run cs (h.step c)

/-! ### What a call does to a modifiers object -/

/-- What the call means for the modifiers object `m` when it is made: the change of the value that it asks for, or none -/
def World.asks (w : World N S U) (m : Nat) : Call N S U → Option (ModOp N)
  | .addToSet r x => match w.mods[m]? with
    | none => none
    | some refs =>
      if r = refs.newer then some (.allowNewer x)
      else if r = refs.any then some (.allowAny x)
      else if r = refs.older then some (.allowOlder x)
      else none
  | .allowNewer q x => if (w.requests[q]?).map RequestObj.modifiers = some m then some (.allowNewer x) else none
  | .allowAny q x => if (w.requests[q]?).map RequestObj.modifiers = some m then some (.allowAny x) else none
  | .allowOlder q x => if (w.requests[q]?).map RequestObj.modifiers = some m then some (.allowOlder x) else none
  | .update k other => if k = m then (w.value other).map ModOp.update else none
  | .remove k a =>
    if k = m then
      match a with
      | .str _ => none
      | .list l => some (.remove l)
      | .set r => some (.remove (w.setAt r))
    else none
  | _ => none

/-- the value of `m` after the change, if there is one -/
def applyTo (v : Option (Modifiers N)) : Option (ModOp N) → Option (Modifiers N)
  | none => v
  | some o => v.map (fun v => ModOp.apply v o)

theorem World.value_eq {w : World N S U} {m : Nat} {r : ModsRefs} (h : w.mods[m]? = some r) :
    w.value m = some ⟨w.setAt r.newer, w.setAt r.any, w.setAt r.older⟩ := by simp [World.value, h]

theorem World.value_addTo {w : World N S U} (hw : w.WF) {m : Nat} {refs : ModsRefs} (h : w.mods[m]? = some refs) (r : Nat) (x : N) :
    (w.addTo r x).value m = applyTo (w.value m) (w.asks m (.addToSet r x)) := by
  obtain ⟨l1, l2, l3⟩ := hw.lt h
  obtain ⟨d1, d2, d3⟩ := hw.fields h
  have hm : (w.addTo r x).mods[m]? = some refs := h
  rw [World.value_eq hm, World.value_eq h]
  simp only [World.asks, h]
  have key : ∀ r', (w.addTo r x).setAt r' = if r = r' ∧ r < w.sets.length then sadd x (w.setAt r) else w.setAt r' :=
    fun r' => World.setAt_set w r _ r'
  simp only [key]
  by_cases e1 : r = refs.newer
  · subst e1
    simp [applyTo, ModOp.apply, Modifiers.addNewer, l1, d1, d2]
  by_cases e2 : r = refs.any
  · subst e2
    simp [applyTo, ModOp.apply, Modifiers.addAny, l2, d1.symm, d3]
  by_cases e3 : r = refs.older
  · subst e3
    simp [applyTo, ModOp.apply, Modifiers.addOlder, l3, d2.symm, d3.symm]
  · simp [applyTo, e1, e2, e3]

theorem World.asks_other {w : World N S U} (hw : w.WF) {m k : Nat} {refs refs' : ModsRefs} (h : w.mods[m]? = some refs)
    (h' : w.mods[k]? = some refs') (hne : k ≠ m) {r : Nat} (hr : r ∈ refs'.all) (x : N) :
    w.asks m (.addToSet r x : Call N S U) = none := by
  have := hw.disjoint h' h hne hr
  simp [ModsRefs.all] at this
  simp [World.asks, h, this]

/-- which set of one modifiers object can be which set of another -/
theorem World.WF.same {w : World N S U} (hw : w.WF) {m k : Nat} {a b : ModsRefs} (h : w.mods[m]? = some a)
    (h' : w.mods[k]? = some b) : a.newer ≠ b.any ∧ a.newer ≠ b.older ∧ a.any ≠ b.newer ∧ a.any ≠ b.older ∧
      a.older ≠ b.newer ∧ a.older ≠ b.any := by
  by_cases e : m = k
  · subst e
    rw [h] at h'
    cases h'
    obtain ⟨d1, d2, d3⟩ := hw.fields h
    exact ⟨d1, d2, d1.symm, d3, d2.symm, d3.symm⟩
  · have d1 := hw.disjoint h h' e (x := a.newer) (by simp [ModsRefs.all])
    have d2 := hw.disjoint h h' e (x := a.any) (by simp [ModsRefs.all])
    have d3 := hw.disjoint h h' e (x := a.older) (by simp [ModsRefs.all])
    simp [ModsRefs.all] at d1 d2 d3
    tauto

theorem World.WF.ne {w : World N S U} (hw : w.WF) {m k : Nat} {a b : ModsRefs} (h : w.mods[m]? = some a)
    (h' : w.mods[k]? = some b) (e : m ≠ k) : a.newer ≠ b.newer ∧ a.any ≠ b.any ∧ a.older ≠ b.older := by
  have d1 := hw.disjoint h h' e (x := a.newer) (by simp [ModsRefs.all])
  have d2 := hw.disjoint h h' e (x := a.any) (by simp [ModsRefs.all])
  have d3 := hw.disjoint h h' e (x := a.older) (by simp [ModsRefs.all])
  simp [ModsRefs.all] at d1 d2 d3
  tauto

theorem World.setAt_updateFrom (w : World N S U) (r r' x : Nat) :
    (w.updateFrom r r').setAt x = if r = x ∧ r < w.sets.length then supdate (w.setAt r') (w.setAt r) else w.setAt x :=
  World.setAt_set w r _ x

theorem World.setAt_diffFrom (w : World N S U) (r : Nat) (ps : List N) (x : Nat) :
    (w.diffFrom r ps).setAt x = if r = x ∧ r < w.sets.length then Modifiers.diffUpdate (w.setAt r) ps else w.setAt x :=
  World.setAt_set w r _ x

@[simp] theorem World.length_updateFrom (w : World N S U) (r r' : Nat) : (w.updateFrom r r').sets.length = w.sets.length := by
  simp [World.updateFrom]

@[simp] theorem World.length_diffFrom (w : World N S U) (r : Nat) (ps : List N) :
    (w.diffFrom r ps).sets.length = w.sets.length := by
  simp [World.diffFrom]

theorem World.value_update {w : World N S U} (hw : w.WF) {m k j : Nat} {a b c : ModsRefs} (h : w.mods[m]? = some a)
    (h' : w.mods[k]? = some b) (h'' : w.mods[j]? = some c) :
    (w.update a b).value j = if j = m then
      (w.value m).map (fun v => v.update ⟨w.setAt b.newer, w.setAt b.any, w.setAt b.older⟩) else w.value j := by
  obtain ⟨l1, l2, l3⟩ := hw.lt h
  obtain ⟨s1, s2, s3, s4, s5, s6⟩ := hw.same h h'
  obtain ⟨t1, t2, t3, t4, t5, t6⟩ := hw.same h h''
  obtain ⟨u1, u2, u3⟩ := hw.fields h
  have hm : (w.update a b).mods[j]? = some c := h''
  rw [World.value_eq hm, World.value_eq h'', World.value_eq h]
  simp only [World.update, World.setAt_updateFrom, World.length_updateFrom]
  by_cases e : j = m
  · subst e
    rw [h] at h''
    cases h''
    simp [Modifiers.update, l1, l2, l3, s1, s2, s3, s4, s5, s6, u1, u1.symm, u2, u2.symm, u3, u3.symm]
  · obtain ⟨v1, v2, v3⟩ := hw.ne h h'' (Ne.symm e)
    simp [e, t1, t2, t3, t4, t5, t6, v1, v2, v3]

theorem diffUpdate_fromkeys (l ps : List N) : Modifiers.diffUpdate l (fromkeys ps) = Modifiers.diffUpdate l ps := by
  simp [Modifiers.diffUpdate]

theorem World.value_remove {w : World N S U} (hw : w.WF) {m j : Nat} {a c : ModsRefs} (h : w.mods[m]? = some a)
    (h'' : w.mods[j]? = some c) (x : Names N) :
    (w.remove a x).value j = if j = m then (w.value m).map (fun v => v.remove (w.contents x)) else w.value j := by
  obtain ⟨l1, l2, l3⟩ := hw.lt h
  obtain ⟨t1, t2, t3, t4, t5, t6⟩ := hw.same h h''
  obtain ⟨u1, u2, u3⟩ := hw.fields h
  have hm : (w.remove a x).mods[j]? = some c := h''
  rw [World.value_eq hm, World.value_eq h'', World.value_eq h]
  simp only [World.remove, World.setAt_diffFrom, World.length_diffFrom, diffUpdate_fromkeys]
  by_cases e : j = m
  · subst e
    rw [h] at h''
    cases h''
    simp [Modifiers.remove, l1, l2, l3, u1, u1.symm, u2, u2.symm, u3, u3.symm]
  · obtain ⟨v1, v2, v3⟩ := hw.ne h h'' (Ne.symm e)
    simp [e, t1, t2, t3, t4, t5, t6, v1, v2, v3]

theorem World.value_append {w : World N S U} (hw : w.WF) {m : Nat} {refs : ModsRefs} (h : w.mods[m]? = some refs)
    (w' : World N S U) (l : List (List N)) (hs : w'.sets = w.sets ++ l) (hm : w'.mods[m]? = some refs) :
    w'.value m = w.value m := by
  obtain ⟨l1, l2, l3⟩ := hw.lt h
  have key : ∀ r, r < w.sets.length → w'.setAt r = w.setAt r := by
    intro r hr
    simp [World.setAt, List.getD_eq_getElem?_getD, hs, List.getElem?_append_left hr]
  rw [World.value_eq hm, World.value_eq h, key _ l1, key _ l2, key _ l3]

theorem World.getElem?_lt {w : World N S U} {m : Nat} (h : m < w.mods.length) : ∃ r, w.mods[m]? = some r :=
  ⟨_, List.getElem?_eq_getElem h⟩

theorem World.value_newModifiers {w : World N S U} (hw : w.WF) {m : Nat} (hm : m < w.mods.length) (a b c : Names N) :
    (w.newModifiers a b c).1.value m = w.value m := by
  obtain ⟨refs, h⟩ := World.getElem?_lt hm
  obtain ⟨x, y, z, e, -⟩ := w.newModifiers_eq a b c
  refine World.value_append hw h _ [x, y, z] (by rw [e]) ?_
  rw [e]
  simp only
  rw [List.getElem?_append_left hm, h]

theorem World.value_onRequest {w : World N S U} (hw : w.WF) {m : Nat} (hm : m < w.mods.length) (q : Nat)
    (f : ModsRefs → World N S U) (op : ModOp N)
    (hf : ∀ k refs, w.mods[k]? = some refs → (f refs).value m = if m = k then (w.value m).map (ModOp.apply · op) else w.value m) :
    (w.onRequest q f).1.value m =
      applyTo (w.value m) (if (w.requests[q]?).map RequestObj.modifiers = some m then some op else none) := by
  unfold World.onRequest
  cases hq : w.requests[q]? with
  | none => simp [applyTo]
  | some o =>
    obtain ⟨r, hr⟩ := World.getElem?_lt (hw.reqs o (List.mem_of_getElem? hq))
    simp only [hr, hf _ r hr, Option.map_some]
    by_cases e : m = o.modifiers
    · simp [e, applyTo]
    · have : ¬ some o.modifiers = some m := by simpa using fun h => e h.symm
      simp [e, this, applyTo]

/-- Every call changes the value of every modifiers object in the way that it asks for, and in no other. -/
theorem World.value_step {w : World N S U} (hw : w.WF) {m : Nat} (hm : m < w.mods.length) (c : Call N S U) :
    (w.step c).1.value m = applyTo (w.value m) (w.asks m c) := by
  obtain ⟨refs, h⟩ := World.getElem?_lt hm
  have onReq : ∀ (fld : ModsRefs → Nat) (op : N → ModOp N), (∀ r, fld r ∈ r.all) →
      (∀ x, w.asks m (.addToSet (fld refs) x : Call N S U) = some (op x)) → ∀ (x : N) (k : Nat) (r : ModsRefs), w.mods[k]? = some r →
      (w.addTo (fld r) x).value m = if m = k then (w.value m).map (ModOp.apply · (op x)) else w.value m := by
    intro fld op hfld hop x k r hr
    rw [World.value_addTo hw h]
    by_cases e : m = k
    · subst e
      rw [h] at hr; cases hr
      rw [hop]; simp [applyTo]
    · rw [World.asks_other hw h hr (Ne.symm e) (hfld r)]
      simp [e, applyTo]
  obtain ⟨d1, d2, d3⟩ := hw.fields h
  cases c with
  | newSet a => exact World.value_append hw h _ _ rfl h
  | addToSet r x => exact World.value_addTo hw h r x
  | newModifiers a b c =>
    simp only [World.step]
    split
    · exact World.value_newModifiers hw hm a b c
    · rfl
  | newRequest k =>
    cases k with
    | none => exact World.value_newModifiers hw hm _ _ _
    | some k =>
      simp only [World.step]
      split <;> rfl
  | allowNewer q x =>
    exact World.value_onRequest hw hm q _ _
      (onReq ModsRefs.newer ModOp.allowNewer (by simp [ModsRefs.all]) (by simp [World.asks, h]) x)
  | allowAny q x =>
    exact World.value_onRequest hw hm q _ _
      (onReq ModsRefs.any ModOp.allowAny (by simp [ModsRefs.all]) (by simp [World.asks, h, d1.symm]) x)
  | allowOlder q x =>
    exact World.value_onRequest hw hm q _ _
      (onReq ModsRefs.older ModOp.allowOlder (by simp [ModsRefs.all]) (by simp [World.asks, h, d2.symm, d3.symm]) x)
  | update k k' =>
    simp only [World.step, World.asks]
    cases hk : w.mods[k]? with
    | none =>
      have : k ≠ m := by rintro rfl; rw [h] at hk; cases hk
      simp [this, applyTo]
    | some a =>
      cases hk' : w.mods[k']? with
      | none => simp [World.value, hk', applyTo]
      | some b =>
        simp only [World.value_update hw hk hk' h]
        by_cases e : m = k
        · subst e
          simp [World.value_eq hk', applyTo, ModOp.apply]
        · have e' : ¬ k = m := fun q => e q.symm
          simp [e, e', applyTo]
  | remove k a =>
    simp only [World.step, World.asks]
    cases hk : w.mods[k]? with
    | none =>
      have : k ≠ m := by rintro rfl; rw [h] at hk; cases hk
      simp [this, applyTo]
    | some r =>
      by_cases e : m = k
      · subst e
        cases a <;> simp [World.value_remove hw hk h, applyTo, ModOp.apply, World.contents]
      · have e' : ¬ k = m := fun q => e q.symm
        cases a <;> simp [World.value_remove hw hk h, applyTo, e, e']
  | addJob q r k =>
    simp only [World.step]
    split
    · rfl
    · split <;> rfl
  | setPoolModifiers k =>
    cases k with
    | none => rfl
    | some k =>
      simp only [World.step]
      split <;> rfl
  | solve o q =>
    simp only [World.step]
    split <;> rfl
  | solveWithHint o o' q =>
    simp only [World.step]
    split <;> rfl
  | whatProvides r b => rfl

theorem World.mods_step (w : World N S U) (c : Call N S U) : w.mods <+: (w.step c).1.mods := by
  have onReq : ∀ q (f : ModsRefs → World N S U), (∀ r, (f r).mods = w.mods) → (w.onRequest q f).1.mods = w.mods := by
    intro q f hf
    unfold World.onRequest
    split
    · rfl
    · split
      · rfl
      · exact hf _
  have p : ∀ l, l = w.mods → w.mods <+: l := by rintro _ rfl; exact List.prefix_refl _
  cases c with
  | newSet a => exact p _ rfl
  | addToSet r x => exact p _ rfl
  | newModifiers a b c =>
    obtain ⟨x, y, z, e, -⟩ := w.newModifiers_eq a b c
    simp only [World.step]
    split
    · rw [e]; exact List.prefix_append _ _
    · exact p _ rfl
  | newRequest k =>
    cases k with
    | none =>
      obtain ⟨x, y, z, e, -⟩ := w.newModifiers_eq (.list []) (.list []) (.list [])
      simp only [World.step, World.newRequest, e]
      exact List.prefix_append _ _
    | some k =>
      simp only [World.step]
      split <;> exact p _ rfl
  | allowNewer q x => exact p _ (onReq q _ (fun _ => rfl))
  | allowAny q x => exact p _ (onReq q _ (fun _ => rfl))
  | allowOlder q x => exact p _ (onReq q _ (fun _ => rfl))
  | update k k' =>
    simp only [World.step]
    split <;> exact p _ rfl
  | remove k a =>
    simp only [World.step]
    split
    · exact p _ rfl
    · split <;> exact p _ rfl
  | addJob q r k =>
    simp only [World.step]
    split
    · exact p _ rfl
    · split <;> exact p _ rfl
  | setPoolModifiers k =>
    cases k with
    | none => exact p _ rfl
    | some k =>
      simp only [World.step]
      split <;> exact p _ rfl
  | solve o q =>
    simp only [World.step]
    split <;> exact p _ rfl
  | solveWithHint o o' q =>
    simp only [World.step]
    split <;> exact p _ rfl
  | whatProvides r b => exact p _ rfl

end
end Verif.Solve
