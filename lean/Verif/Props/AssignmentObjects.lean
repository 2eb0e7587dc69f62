import Verif.AssignmentObjects
import Verif.Props.Views
/-
C129: AssignmentSets as objects: copies, and what is handed out.
-/
set_option linter.unusedSectionVars false
namespace Verif.Props
open Verif

/-! ### specification: each AssignmentSet is a value of its own -/

/-- What a call does, if AssignmentSets are values: it changes the one that it is made on, a copy is a further one. -/
def valueStep (l : List ASet) : AWorld.Call → List ASet
  | .new => l ++ [ASet.empty]
  | .set i key value => l.modify i (fun a => a.setItem key value)
  | .del i key => l.modify i (fun a => a.delItem key)
  | .getLog i => l.modify i (fun a => a.getChangelog.1)
  | .consume i => l.modify i (fun a => a.consumeChangelog.1)
  | .copy i => match l[i]? with
    | some a => l ++ [a.copy]
    | none => l

def valueRun (calls : List AWorld.Call) : List ASet := calls.foldl valueStep []

/-! ### the invariant -/
namespace AObj
open AWorld

/-- two AssignmentSets that have nothing in common (but perhaps a changelog) -/
structure Apart (o o' : ARefs) : Prop where
  data : o.data ≠ o'.data
  orig : o.orig ≠ o'.orig
  seen1 : o.seen ≠ o'.seen
  seen2 : o.seen ≠ o'.assigned
  seen3 : o.seen ≠ o'.newKeys
  assigned1 : o.assigned ≠ o'.seen
  assigned2 : o.assigned ≠ o'.assigned
  assigned3 : o.assigned ≠ o'.newKeys
  new1 : o.newKeys ≠ o'.seen
  new2 : o.newKeys ≠ o'.assigned
  new3 : o.newKeys ≠ o'.newKeys

/-- everything that an AssignmentSet refers to was made before `n`, and its three sets are three -/
structure Fine (n : Nat) (o : ARefs) : Prop where
  data : o.data < n
  orig : o.orig < n
  seen : o.seen < n
  assigned : o.assigned < n
  newKeys : o.newKeys < n
  cached : ∀ c, o.cached = some c → c < n
  s1 : o.seen ≠ o.assigned
  s2 : o.seen ≠ o.newKeys
  s3 : o.assigned ≠ o.newKeys

structure WF (w : AWorld) : Prop where
  fine : ∀ o ∈ w.objs, Fine w.next o
  apart : ∀ (i j : Nat) (o o' : ARefs), w.objs[i]? = some o → w.objs[j]? = some o' → i ≠ j → Apart o o'

/-- the world `w'` after a call on the `i`-th AssignmentSet `o`, which is `o'` afterwards -/
structure After (w w' : AWorld) (i : Nat) (o o' : ARefs) (a : ASet) : Prop where
  objs : w'.objs = w.objs.set i o'
  next : w.next ≤ w'.next
  data : o'.data = o.data
  seen : o'.seen = o.seen
  assigned : o'.assigned = o.assigned
  newKeys : o'.newKeys = o.newKeys
  orig : o'.orig = o.orig ∨ (w.next ≤ o'.orig ∧ o'.orig < w'.next)
  cached : ∀ c, o'.cached = some c → c < w'.next
  datas : ∀ r, r ≠ o.data → w'.datas r = w.datas r
  origs : ∀ r, r ≠ o.orig → r < w.next → w'.origs r = w.origs r
  sets : ∀ r, r ≠ o.seen → r ≠ o.assigned → r ≠ o.newKeys → w'.sets r = w.sets r
  logs : ∀ r, r < w.next → w'.logs r = w.logs r
  view : w'.view o' = a

theorem Fine.le {n m : Nat} {o : ARefs} (h : Fine n o) (hl : n ≤ m) : Fine m o :=
  ⟨by have := h.data; omega, by have := h.orig; omega, by have := h.seen; omega, by have := h.assigned; omega,
    by have := h.newKeys; omega, fun c hc => by have := h.cached c hc; omega, h.s1, h.s2, h.s3⟩

theorem After.fine {w w' : AWorld} {i : Nat} {o o' : ARefs} {a : ASet} (hfo : Fine w.next o)
    (h : After w w' i o o' a) : Fine w'.next o' := by
  have := h.next
  refine ⟨by rw [h.data]; have := hfo.data; omega, ?_, by rw [h.seen]; have := hfo.seen; omega,
    by rw [h.assigned]; have := hfo.assigned; omega, by rw [h.newKeys]; have := hfo.newKeys; omega, h.cached,
    by rw [h.seen, h.assigned]; exact hfo.s1, by rw [h.seen, h.newKeys]; exact hfo.s2,
    by rw [h.assigned, h.newKeys]; exact hfo.s3⟩
  rcases h.orig with e | e
  · rw [e]; have := hfo.orig; omega
  · exact e.2

theorem After.at {w w' : AWorld} {i : Nat} {o o' : ARefs} {a : ASet} (hi : w.objs[i]? = some o)
    (h : After w w' i o o' a) : w'.objs[i]? = some o' := by
  have hil : i < w.objs.length := (List.getElem?_eq_some_iff.1 hi).1
  rw [h.objs, List.getElem?_set, if_pos rfl, if_pos hil]

theorem After.wf {w w' : AWorld} {i : Nat} {o o' : ARefs} {a : ASet} (hw : WF w) (hi : w.objs[i]? = some o)
    (h : After w w' i o o' a) : WF w' := by
  have hfo : Fine w.next o := hw.fine o (List.mem_of_getElem? hi)
  have hil : i < w.objs.length := (List.getElem?_eq_some_iff.1 hi).1
  have hfo' : Fine w'.next o' := h.fine hfo
  have horig : ∀ p ∈ w.objs, o.orig ≠ p.orig → o'.orig ≠ p.orig := by
    intro p hp hne
    rcases h.orig with e | e
    · rw [e]; exact hne
    · have := (hw.fine p hp).orig; omega
  constructor
  · intro p hp
    rw [h.objs] at hp
    rcases List.mem_or_eq_of_mem_set hp with hp | rfl
    · exact (hw.fine p hp).le h.next
    · exact hfo'
  · intro j k p q hj hk hjk
    rw [h.objs] at hj hk
    rw [List.getElem?_set] at hj hk
    by_cases hij : i = j
    · subst hij
      rw [if_pos rfl, if_pos hil, Option.some.injEq] at hj
      subst hj
      rw [if_neg hjk] at hk
      have ha := hw.apart i k o q hi hk hjk
      exact ⟨by rw [h.data]; exact ha.data, horig q (List.mem_of_getElem? hk) ha.orig,
        by rw [h.seen]; exact ha.seen1, by rw [h.seen]; exact ha.seen2, by rw [h.seen]; exact ha.seen3,
        by rw [h.assigned]; exact ha.assigned1, by rw [h.assigned]; exact ha.assigned2, by rw [h.assigned]; exact ha.assigned3,
        by rw [h.newKeys]; exact ha.new1, by rw [h.newKeys]; exact ha.new2, by rw [h.newKeys]; exact ha.new3⟩
    · rw [if_neg hij] at hj
      by_cases hik : i = k
      · subst hik
        rw [if_pos rfl, if_pos hil, Option.some.injEq] at hk
        subst hk
        have ha := hw.apart j i p o hj hi hjk
        exact ⟨by rw [h.data]; exact ha.data, fun e => horig p (List.mem_of_getElem? hj) (Ne.symm ha.orig) e.symm,
          by rw [h.seen]; exact ha.seen1, by rw [h.assigned]; exact ha.seen2, by rw [h.newKeys]; exact ha.seen3,
          by rw [h.seen]; exact ha.assigned1, by rw [h.assigned]; exact ha.assigned2, by rw [h.newKeys]; exact ha.assigned3,
          by rw [h.seen]; exact ha.new1, by rw [h.assigned]; exact ha.new2, by rw [h.newKeys]; exact ha.new3⟩
      · rw [if_neg hik] at hk
        exact hw.apart j k p q hj hk hjk

theorem After.other {w w' : AWorld} {i j : Nat} {o o' p : ARefs} {a : ASet} (hw : WF w) (hi : w.objs[i]? = some o)
    (h : After w w' i o o' a) (hj : w.objs[j]? = some p) (hij : i ≠ j) : w'.view p = w.view p := by
  have ha := hw.apart j i p o hj hi (Ne.symm hij)
  have hf := hw.fine p (List.mem_of_getElem? hj)
  unfold AWorld.view
  rw [h.datas _ ha.data, h.origs _ ha.orig hf.orig, h.sets _ ha.seen1 ha.seen2 ha.seen3,
    h.sets _ ha.assigned1 ha.assigned2 ha.assigned3, h.sets _ ha.new1 ha.new2 ha.new3]
  have : p.cached.map w'.logs = p.cached.map w.logs := by
    cases hc : p.cached with
    | none => rfl
    | some c => simp only [Option.map_some]; rw [h.logs c (hf.cached c hc)]
  rw [this]

theorem After.views {w w' : AWorld} {i : Nat} {o o' : ARefs} {f : ASet → ASet} (hw : WF w) (hi : w.objs[i]? = some o)
    (h : After w w' i o o' (f (w.view o))) : w'.objs.map w'.view = (w.objs.map w.view).modify i f := by
  apply List.ext_getElem?
  intro j
  rw [h.objs, List.getElem?_map, List.getElem?_modify, List.getElem?_map, List.getElem?_set]
  have hil : i < w.objs.length := (List.getElem?_eq_some_iff.1 hi).1
  by_cases hij : i = j
  · subst hij
    rw [if_pos rfl, if_pos hil, hi]
    simp [h.view]
  · rw [if_neg hij]
    cases hj : w.objs[j]? with
    | none => rfl
    | some p => simp [h.other hw hi hj hij, hij]

theorem after_del {w : AWorld} {i : Nat} {o : ARefs} (hf : Fine w.next o) (hi : w.objs[i]? = some o) (key : Int) :
    ∃ o', After w (w.delItem i o key) i o o' ((w.view o).delItem key) := by
  have hset : w.objs.set i o = w.objs := by
    apply List.ext_getElem?
    intro j
    rw [List.getElem?_set]
    have hil : i < w.objs.length := (List.getElem?_eq_some_iff.1 hi).1
    by_cases hij : i = j
    · subst hij; rw [if_pos rfl, if_pos hil, hi]
    · rw [if_neg hij]
  by_cases hd : w.datas o.data key = none
  · refine ⟨o, ?_⟩
    have e : w.delItem i o key = w.setSet o.seen (sdiscard (iabs key) (w.sets o.seen)) := by
      simp [AWorld.delItem, AWorld.setSet, hd]
    rw [e]
    refine ⟨hset.symm, Nat.le_refl _, rfl, rfl, rfl, rfl, Or.inl rfl, hf.cached, fun _ _ => rfl, fun _ _ _ => rfl, ?_,
      fun _ _ => rfl, ?_⟩
    · intro r h1 _ _; simp [AWorld.setSet, h1]
    · simp [AWorld.view, AWorld.setSet, ASet.delItem, hd, hf.s1.symm, hf.s2.symm]
  · refine ⟨{ o with cached := none }, ?_⟩
    have e : w.delItem i o key = (((w.setSet o.seen (sdiscard (iabs key) (w.sets o.seen))).updateDiff i o key none).setData
        o.data (fset (fset (w.datas o.data) key none) (-key) none)).setSet o.assigned
        (sdiscard (iabs key) (w.sets o.assigned)) := by
      simp [AWorld.delItem, AWorld.setSet, AWorld.updateDiff, AWorld.setOrig, AWorld.setObj, AWorld.setData, hd, hf.s1.symm]
    rw [e]
    refine ⟨rfl, Nat.le_refl _, rfl, rfl, rfl, rfl, Or.inl rfl, (by intro c h; cases h), ?_, ?_, ?_, fun _ _ => rfl, ?_⟩
    · intro r h; simp [AWorld.setSet, AWorld.setData, AWorld.updateDiff, AWorld.setOrig, AWorld.setObj, h]
    · intro r h _; simp [AWorld.setSet, AWorld.setData, AWorld.updateDiff, AWorld.setOrig, AWorld.setObj, h]
    · intro r h1 h2 h3; simp [AWorld.setSet, AWorld.setData, AWorld.updateDiff, AWorld.setOrig, AWorld.setObj, h1, h2]
    · simp [AWorld.view, AWorld.setSet, AWorld.setData, AWorld.updateDiff, AWorld.setOrig, AWorld.setObj, ASet.delItem,
        ASet.updateDiff, hd, hf.s1, hf.s2.symm, hf.s3.symm]

/-- two calls, one after the other -/
theorem After.trans {w w' w'' : AWorld} {i : Nat} {o o' o'' : ARefs} {a b : ASet} (h : After w w' i o o' a)
    (h' : After w' w'' i o' o'' b) (he : o'.orig = o.orig) : After w w'' i o o'' b := by
  refine ⟨by rw [h'.objs, h.objs, List.set_set], by have := h.next; have := h'.next; omega, by rw [h'.data, h.data],
    by rw [h'.seen, h.seen], by rw [h'.assigned, h.assigned], by rw [h'.newKeys, h.newKeys], ?_, h'.cached, ?_, ?_, ?_, ?_,
    h'.view⟩
  · rcases h'.orig with e | e
    · exact Or.inl (by rw [e, he])
    · exact Or.inr ⟨by have := h.next; omega, e.2⟩
  · intro r hr; rw [h'.datas r (by rw [h.data]; exact hr), h.datas r hr]
  · intro r hr hlt
    rw [h'.origs r (by rw [he]; exact hr) (by have := h.next; omega), h.origs r hr hlt]
  · intro r h1 h2 h3
    rw [h'.sets r (by rw [h.seen]; exact h1) (by rw [h.assigned]; exact h2) (by rw [h.newKeys]; exact h3), h.sets r h1 h2 h3]
  · intro r hr
    rw [h'.logs r (by have := h.next; omega), h.logs r hr]

/-- writing to one of the three sets -/
theorem after_setSet {w : AWorld} {i : Nat} {o : ARefs} (hf : Fine w.next o) (hi : w.objs[i]? = some o) {r : Nat}
    (hr : r = o.seen ∨ r = o.assigned ∨ r = o.newKeys) (s : List Int) :
    After w (w.setSet r s) i o o ((w.setSet r s).view o) := by
  have hset : w.objs.set i o = w.objs := by
    apply List.ext_getElem?
    intro j
    rw [List.getElem?_set]
    have hil : i < w.objs.length := (List.getElem?_eq_some_iff.1 hi).1
    by_cases hij : i = j
    · subst hij; rw [if_pos rfl, if_pos hil, hi]
    · rw [if_neg hij]
  refine ⟨hset.symm, Nat.le_refl _, rfl, rfl, rfl, rfl, Or.inl rfl, hf.cached, fun _ _ => rfl, fun _ _ _ => rfl, ?_,
    fun _ _ => rfl, rfl⟩
  intro x h1 h2 h3
  have : x ≠ r := by rintro rfl; rcases hr with h | h | h <;> contradiction
  simp [AWorld.setSet, this]

theorem after_set {w : AWorld} {i : Nat} {o : ARefs} (hf : Fine w.next o) (hi : w.objs[i]? = some o) (key : Int)
    (value : Option Bool) : ∃ o', After w (w.setItem i o key value) i o o' ((w.view o).setItem key value) := by
  -- new_keys
  have h1 : ∃ w1, w1 = (if iabs key ∈ w.sets o.seen then w else w.setSet o.newKeys (sadd (iabs key) (w.sets o.newKeys))) ∧
      After w w1 i o o (if iabs key ∈ (w.view o).seen then w.view o
        else { w.view o with newKeys := sadd (iabs key) (w.view o).newKeys }) := by
    refine ⟨_, rfl, ?_⟩
    by_cases hk : iabs key ∈ w.sets o.seen
    · have hk' : iabs key ∈ (w.view o).seen := hk
      rw [if_pos hk, if_pos hk']
      have := after_setSet hf hi (Or.inl rfl) (w.sets o.seen)
      have e : w.setSet o.seen (w.sets o.seen) = w := by
        unfold AWorld.setSet
        have : (fun x => if x = o.seen then w.sets o.seen else w.sets x) = w.sets := by
          funext x; split
          · subst_vars; rfl
          · rfl
        rw [this]
      rw [e] at this
      exact this
    · have hk' : iabs key ∉ (w.view o).seen := hk
      rw [if_neg hk, if_neg hk']
      have := after_setSet hf hi (Or.inr (Or.inr rfl)) (sadd (iabs key) (w.sets o.newKeys))
      have e : (w.setSet o.newKeys (sadd (iabs key) (w.sets o.newKeys))).view o =
          { w.view o with newKeys := sadd (iabs key) (w.view o).newKeys } := by
        simp [AWorld.view, AWorld.setSet, hf.s2, hf.s3]
      rw [e] at this
      exact this
  obtain ⟨w1, e1, h1⟩ := h1
  have hi1 := h1.at hi
  have hf1 := h1.fine hf
  -- the value
  have h2 : ∃ w2 o', w2 = (match value with
        | none => w1.delItem i o key
        | some b => ((w1.updateDiff i o key (some b)).setData o.data (fset (fset (w1.datas o.data) key (some b)) (-key)
            (some (!b)))).setSet o.assigned (sadd (iabs key) (w1.sets o.assigned))) ∧ o'.orig = o.orig ∧
      After w1 w2 i o o' (match value with
        | none => (w1.view o).delItem key
        | some b => { (w1.view o).updateDiff key (some b) with
            data := fset (fset (w1.view o).data key (some b)) (-key) (some (!b))
            assigned := sadd (iabs key) (w1.view o).assigned }) := by
    cases value with
    | none =>
      obtain ⟨o', h⟩ := after_del hf1 hi1 key
      rcases h.orig with e | e
      · exact ⟨_, o', rfl, e, h⟩
      · -- deleting makes no new dictionary
        have : (w1.delItem i o key).next = w1.next := by
          unfold AWorld.delItem
          simp only
          split <;> rfl
        omega
    | some b =>
      refine ⟨_, { o with cached := none }, rfl, rfl, rfl, Nat.le_refl _, rfl, rfl, rfl, rfl, Or.inl rfl, (by intro c h; cases h),
        ?_, ?_, ?_, fun _ _ => rfl, ?_⟩
      · intro r h; simp [AWorld.setSet, AWorld.setData, AWorld.updateDiff, AWorld.setOrig, AWorld.setObj, h]
      · intro r h _; simp [AWorld.setSet, AWorld.setData, AWorld.updateDiff, AWorld.setOrig, AWorld.setObj, h]
      · intro r h1 h2 h3; simp [AWorld.setSet, AWorld.setData, AWorld.updateDiff, AWorld.setOrig, AWorld.setObj, h2]
      · simp [AWorld.view, AWorld.setSet, AWorld.setData, AWorld.updateDiff, AWorld.setOrig, AWorld.setObj,
          ASet.updateDiff, hf.s1, hf.s3.symm]
  obtain ⟨w2, o', e2, ho, h2⟩ := h2
  have h12 := h1.trans h2 rfl
  have hi2 := h12.at hi
  have hf2 := h12.fine hf
  -- seen
  have h3 := after_setSet hf2 hi2 (Or.inl rfl) (sadd (iabs key) (w2.sets o'.seen))
  have h123 := h12.trans h3 ho
  refine ⟨o', ?_⟩
  have ew : w.setItem i o key value = w2.setSet o'.seen (sadd (iabs key) (w2.sets o'.seen)) := by
    rw [h12.seen, e2, e1]
    unfold AWorld.setItem
    cases value <;> rfl
  have ev : (w2.setSet o'.seen (sadd (iabs key) (w2.sets o'.seen))).view o' = (w.view o).setItem key value := by
    have e3 : (w2.setSet o'.seen (sadd (iabs key) (w2.sets o'.seen))).view o' =
        { w2.view o' with seen := sadd (iabs key) (w2.view o').seen } := by
      simp [AWorld.view, AWorld.setSet, hf2.s1.symm, hf2.s2.symm]
    rw [e3, h2.view, h1.view]
    unfold ASet.setItem
    cases value <;> rfl
  rw [ew]
  rw [ev] at h123
  exact h123

theorem after_getLog {w : AWorld} {i : Nat} {o : ARefs} (hf : Fine w.next o) (hi : w.objs[i]? = some o) :
    ∃ o', After w (w.getChangelog i o).1 i o o' (w.view o).getChangelog.1 ∧ o'.orig = o.orig ∧
      o' = { o with cached := some (w.getChangelog i o).2 } ∧
      (w.getChangelog i o).1.logs (w.getChangelog i o).2 = (w.view o).getChangelog.2 ∧
      (w.getChangelog i o).2 < (w.getChangelog i o).1.next := by
  cases hc : o.cached with
  | some c =>
    refine ⟨o, ?_, rfl, ?_, ?_, ?_⟩
    · have := after_setSet hf hi (Or.inl rfl) (w.sets o.seen)
      have e : w.setSet o.seen (w.sets o.seen) = w := by
        unfold AWorld.setSet
        have : (fun x => if x = o.seen then w.sets o.seen else w.sets x) = w.sets := by
          funext x; split
          · subst_vars; rfl
          · rfl
        rw [this]
      rw [e] at this
      have e1 : (w.getChangelog i o).1 = w := by simp [AWorld.getChangelog, hc]
      have e2 : (w.view o).getChangelog.1 = w.view o := by simp [ASet.getChangelog, AWorld.view, hc]
      rw [e1, e2]
      exact this
    · have : (w.getChangelog i o).2 = c := by simp [AWorld.getChangelog, hc]
      rw [this, ← hc]
    · simp [AWorld.getChangelog, ASet.getChangelog, AWorld.view, hc]
    · have := hf.cached c hc
      simpa [AWorld.getChangelog, hc] using this
  | none =>
    refine ⟨{ o with cached := some w.next }, ?_, rfl, ?_, ?_, ?_⟩
    · refine ⟨?_, ?_, rfl, rfl, rfl, rfl, Or.inl rfl, ?_, ?_, ?_, ?_, ?_, ?_⟩
      · simp [AWorld.getChangelog, hc, AWorld.setObj]
      · simp [AWorld.getChangelog, hc]
      · intro c h
        cases h
        simp [AWorld.getChangelog, hc]
      · intro r _; simp [AWorld.getChangelog, hc, AWorld.setObj]
      · intro r _ _; simp [AWorld.getChangelog, hc, AWorld.setObj]
      · intro r _ _ _; simp [AWorld.getChangelog, hc, AWorld.setObj]
      · intro r hr
        have : r ≠ w.next := by omega
        simp [AWorld.getChangelog, hc, this]
      · simp [AWorld.getChangelog, ASet.getChangelog, AWorld.view, hc, AWorld.setObj]
    · simp [AWorld.getChangelog, hc]
    · simp [AWorld.getChangelog, ASet.getChangelog, AWorld.view, hc]
    · simp [AWorld.getChangelog, hc]

theorem after_consume {w : AWorld} {i : Nat} {o : ARefs} (hf : Fine w.next o) (hi : w.objs[i]? = some o) :
    ∃ o', After w (w.consumeChangelog i o).1 i o o' (w.view o).consumeChangelog.1 ∧
      (w.consumeChangelog i o).1.logs (w.consumeChangelog i o).2 = (w.view o).consumeChangelog.2 ∧
      (w.consumeChangelog i o).2 < (w.consumeChangelog i o).1.next := by
  obtain ⟨o1, h1, ho, hoe, hl, hlt⟩ := after_getLog hf hi
  have hf1 := h1.fine hf
  have hi1 := h1.at hi
  have hr2 : (w.consumeChangelog i o).2 = (w.getChangelog i o).2 := rfl
  have hnext : (w.consumeChangelog i o).1.next = (w.getChangelog i o).1.next + 2 := rfl
  have hv := h1.view
  generalize hw1 : (w.getChangelog i o).1 = w1 at *
  have h2 : After w1 (w.consumeChangelog i o).1 i o1 { o with orig := w1.next, cached := some (w1.next + 1) }
      (w.view o).consumeChangelog.1 := by
    refine ⟨?_, by rw [hnext]; omega, h1.data.symm, h1.seen.symm, h1.assigned.symm, h1.newKeys.symm,
      Or.inr ⟨Nat.le_refl _, by rw [hnext]; simp only; omega⟩, ?_, ?_, ?_, ?_, ?_, ?_⟩
    · simp only [AWorld.consumeChangelog, hw1, AWorld.setObj, AWorld.setOrig, AWorld.setSet]
    · intro c h
      cases h
      rw [hnext]; omega
    · intro r _; simp only [AWorld.consumeChangelog, hw1, AWorld.setObj, AWorld.setOrig, AWorld.setSet]
    · intro r _ hr
      have : r ≠ w1.next := by omega
      simp only [AWorld.consumeChangelog, hw1, AWorld.setObj, AWorld.setOrig, AWorld.setSet, if_neg this]
    · intro r _ _ h3
      have : r ≠ o.newKeys := by rw [← h1.newKeys]; exact h3
      simp only [AWorld.consumeChangelog, hw1, AWorld.setObj, AWorld.setOrig, AWorld.setSet, if_neg this]
    · intro r hr
      have : r ≠ w1.next + 1 := by omega
      simp only [AWorld.consumeChangelog, hw1, AWorld.setObj, AWorld.setOrig, AWorld.setSet, if_neg this]
    · have e : (w.view o).consumeChangelog.1 =
          { (w.view o).getChangelog.1 with orig := [], cached := some [], newKeys := [] } := rfl
      rw [e, ← hv]
      simp only [AWorld.view, AWorld.consumeChangelog, hw1, AWorld.setObj, AWorld.setOrig, AWorld.setSet, h1.data, h1.seen,
        h1.assigned, if_pos, hf.s2, hf.s3, if_false, Option.map_some]
  refine ⟨_, h1.trans h2 ho, ?_, ?_⟩
  · rw [hr2, h2.logs _ hlt, hl]
    rfl
  · rw [hr2, hnext]; omega

/-- a further AssignmentSet, with new dictionaries and sets -/
theorem wf_append {w w' : AWorld} (hw : WF w) {n : Nat} (hn : w.next = n)
    (ho : w'.objs = w.objs ++ [⟨n, n, n, none, n + 1, n + 2⟩]) (hnext : w'.next = n + 3) : WF w' := by
  subst hn
  have fresh : ∀ p, Fine w.next p → Apart p ⟨w.next, w.next, w.next, none, w.next + 1, w.next + 2⟩ ∧
      Apart ⟨w.next, w.next, w.next, none, w.next + 1, w.next + 2⟩ p := by
    intro p hp
    obtain ⟨h1, h2, h3, h4, h5, -, -, -, -⟩ := hp
    constructor <;> constructor <;> simp only <;> omega
  constructor
  · intro o h
    rw [ho] at h
    rcases List.mem_append.1 h with h | h
    · exact (hw.fine o h).le (by omega)
    · rw [List.mem_singleton] at h
      subst h
      refine ⟨?_, ?_, ?_, ?_, ?_, (by intro c h; cases h), ?_, ?_, ?_⟩ <;> simp only <;> omega
  · intro i j p q hi hj hij
    rw [ho] at hi hj
    rw [List.getElem?_append] at hi hj
    split at hi
    · split at hj
      · exact hw.apart i j p q hi hj hij
      · have := List.mem_of_getElem? hj
        rw [List.mem_singleton] at this
        subst this
        exact (fresh p (hw.fine p (List.mem_of_getElem? hi))).1
    · have := List.mem_of_getElem? hi
      rw [List.mem_singleton] at this
      subst this
      split at hj
      · exact (fresh q (hw.fine q (List.mem_of_getElem? hj))).2
      · have h1 := (List.getElem?_eq_some_iff.1 hi).1
        have h2 := (List.getElem?_eq_some_iff.1 hj).1
        simp at h1 h2
        omega

theorem views_append {w w' : AWorld} (hw : WF w) {n : Nat} (hn : w.next = n) {a : ASet}
    (ho : w'.objs = w.objs ++ [⟨n, n, n, none, n + 1, n + 2⟩])
    (h1 : ∀ r, r < n → w'.datas r = w.datas r ∧ w'.origs r = w.origs r ∧ w'.sets r = w.sets r ∧ w'.logs r = w.logs r)
    (ha : w'.view ⟨n, n, n, none, n + 1, n + 2⟩ = a) : w'.objs.map w'.view = w.objs.map w.view ++ [a] := by
  subst hn
  rw [ho, List.map_append]
  congr 1
  · apply List.map_congr_left
    intro o h
    have hf := hw.fine o h
    unfold AWorld.view
    rw [(h1 _ hf.data).1, (h1 _ hf.orig).2.1, (h1 _ hf.seen).2.2.1, (h1 _ hf.assigned).2.2.1, (h1 _ hf.newKeys).2.2.1]
    have : o.cached.map w'.logs = o.cached.map w.logs := by
      cases hc : o.cached with
      | none => rfl
      | some c => simp only [Option.map_some]; rw [(h1 c (hf.cached c hc)).2.2.2]
    rw [this]
  · simp [ha]

/-- one call -/
theorem step_spec {w : AWorld} (hw : WF w) (c : AWorld.Call) :
    WF (w.step c) ∧ (w.step c).objs.map (w.step c).view = valueStep (w.objs.map w.view) c ∧
      w.next ≤ (w.step c).next ∧ ∀ r, r < w.next → (w.step c).logs r = w.logs r := by
  have none_case : ∀ (i : Nat) (f : ASet → ASet), w.objs[i]? = none →
      (w.objs.map w.view).modify i f = w.objs.map w.view := by
    intro i f h
    rw [List.getElem?_eq_none_iff] at h
    apply List.modify_eq_self
    simpa using h
  cases c with
  | new =>
    refine ⟨wf_append hw rfl rfl rfl, ?_, by simp [AWorld.step, AWorld.new], fun _ _ => rfl⟩
    refine views_append hw rfl rfl ?_ ?_
    · intro r hr
      have h1 : r ≠ w.next := by omega
      have h2 : r ≠ w.next + 1 := by omega
      have h3 : r ≠ w.next + 2 := by omega
      simp [AWorld.step, AWorld.new, AWorld.setData, AWorld.setOrig, AWorld.setSet, h1, h2, h3]
    · simp [AWorld.step, AWorld.new, AWorld.setData, AWorld.setOrig, AWorld.setSet, AWorld.view, ASet.empty]
  | set i key value =>
    simp only [AWorld.step, valueStep]
    cases hi : w.objs[i]? with
    | none => exact ⟨hw, (none_case i _ hi).symm, Nat.le_refl _, fun _ _ => rfl⟩
    | some o =>
      obtain ⟨o', h⟩ := after_set (hw.fine o (List.mem_of_getElem? hi)) hi key value
      exact ⟨h.wf hw hi, h.views (f := fun a => a.setItem key value) hw hi, h.next, h.logs⟩
  | del i key =>
    simp only [AWorld.step, valueStep]
    cases hi : w.objs[i]? with
    | none => exact ⟨hw, (none_case i _ hi).symm, Nat.le_refl _, fun _ _ => rfl⟩
    | some o =>
      obtain ⟨o', h⟩ := after_del (hw.fine o (List.mem_of_getElem? hi)) hi key
      exact ⟨h.wf hw hi, h.views (f := fun a => a.delItem key) hw hi, h.next, h.logs⟩
  | getLog i =>
    simp only [AWorld.step, valueStep]
    cases hi : w.objs[i]? with
    | none => exact ⟨hw, (none_case i _ hi).symm, Nat.le_refl _, fun _ _ => rfl⟩
    | some o =>
      obtain ⟨o', h, -⟩ := after_getLog (hw.fine o (List.mem_of_getElem? hi)) hi
      exact ⟨h.wf hw hi, h.views (f := fun a => a.getChangelog.1) hw hi, h.next, h.logs⟩
  | consume i =>
    simp only [AWorld.step, valueStep]
    cases hi : w.objs[i]? with
    | none => exact ⟨hw, (none_case i _ hi).symm, Nat.le_refl _, fun _ _ => rfl⟩
    | some o =>
      obtain ⟨o', h, -⟩ := after_consume (hw.fine o (List.mem_of_getElem? hi)) hi
      exact ⟨h.wf hw hi, h.views (f := fun a => a.consumeChangelog.1) hw hi, h.next, h.logs⟩
  | copy i =>
    simp only [AWorld.step, valueStep]
    rw [List.getElem?_map]
    cases hi : w.objs[i]? with
    | none => exact ⟨hw, rfl, Nat.le_refl _, fun _ _ => rfl⟩
    | some o =>
      refine ⟨wf_append hw rfl rfl rfl, ?_, by simp [AWorld.copy], fun _ _ => rfl⟩
      refine views_append hw rfl rfl ?_ ?_
      · intro r hr
        have h1 : r ≠ w.next := by omega
        have h2 : r ≠ w.next + 1 := by omega
        have h3 : r ≠ w.next + 2 := by omega
        simp [AWorld.copy, AWorld.setData, AWorld.setOrig, AWorld.setSet, h1, h2, h3]
      · have hf := hw.fine o (List.mem_of_getElem? hi)
        simp [AWorld.copy, AWorld.setData, AWorld.setOrig, AWorld.setSet, AWorld.view, ASet.copy]

theorem wf_empty : WF AWorld.empty := ⟨by simp [AWorld.empty], by simp [AWorld.empty]⟩

theorem steps_spec (calls : List AWorld.Call) : ∀ {w : AWorld}, WF w →
    WF (calls.foldl AWorld.step w) ∧
    (calls.foldl AWorld.step w).objs.map (calls.foldl AWorld.step w).view = calls.foldl valueStep (w.objs.map w.view) ∧
    ∀ r, r < w.next → (calls.foldl AWorld.step w).logs r = w.logs r := by
  induction calls with
  | nil => intro w hw; exact ⟨hw, rfl, fun _ _ => rfl⟩
  | cons c calls ih =>
    intro w hw
    obtain ⟨h1, h2, h3, h4⟩ := step_spec hw c
    obtain ⟨i1, i2, i3⟩ := ih h1
    refine ⟨i1, by rw [List.foldl_cons, i2, h2]; rfl, ?_⟩
    intro r hr
    rw [List.foldl_cons, i3 r (by omega), h4 r hr]

end AObj

open AObj

/-- C129: AssignmentSets that are made, copied and changed in any order behave like values of their own: a call changes no
other AssignmentSet than the one that it is made on, neither its copies nor the one that it is a copy of. -/
theorem C129_each_its_own (calls : List AWorld.Call) :
    (AWorld.run calls).objs.map (AWorld.run calls).view = valueRun calls :=
  (steps_spec calls wf_empty).2.1

/-- C129: a changelog that was handed out, by `get_changelog` or by `consume_changelog`, is the right one and does not change
any more, whatever calls follow. -/
theorem C129_changelog_stays (calls later : List AWorld.Call) (i : Nat) (o : ARefs)
    (hi : (AWorld.run calls).objs[i]? = some o) :
    (AWorld.run (calls ++ .getLog i :: later)).logs ((AWorld.run calls).getChangelog i o).2 =
      ((AWorld.run calls).view o).getChangelog.2 ∧
    (AWorld.run (calls ++ .consume i :: later)).logs ((AWorld.run calls).consumeChangelog i o).2 =
      ((AWorld.run calls).view o).getChangelog.2 := by
  have hw : WF (AWorld.run calls) := (steps_spec calls wf_empty).1
  have hf := hw.fine o (List.mem_of_getElem? hi)
  have hrun : ∀ c, AWorld.run (calls ++ c :: later) = later.foldl AWorld.step ((AWorld.run calls).step c) := by
    intro c; simp [AWorld.run, List.foldl_append]
  constructor
  · obtain ⟨o', h, -, -, h1, h2⟩ := after_getLog hf hi
    rw [hrun]
    have e : (AWorld.run calls).step (.getLog i) = ((AWorld.run calls).getChangelog i o).1 := by
      simp only [AWorld.step, hi]
    rw [e, (steps_spec later (h.wf hw hi)).2.2 _ h2, h1]
  · obtain ⟨o', h, h1, h2⟩ := after_consume hf hi
    rw [hrun]
    have e : (AWorld.run calls).step (.consume i) = ((AWorld.run calls).consumeChangelog i o).1 := by
      simp only [AWorld.step, hi]
    rw [e, (steps_spec later (h.wf hw hi)).2.2 _ h2, h1]
    rfl

/-- the sets that an AssignmentSet has stay its own -/
theorem refs_stay {w : AWorld} (hw : WF w) (c : AWorld.Call) {i : Nat} {o : ARefs} (hi : w.objs[i]? = some o) :
    ∃ o', (w.step c).objs[i]? = some o' ∧ o'.assigned = o.assigned ∧ o'.newKeys = o.newKeys := by
  have key : ∀ {w' : AWorld} {j : Nat} {p p' : ARefs} {a : ASet}, w.objs[j]? = some p → After w w' j p p' a →
      ∃ o', w'.objs[i]? = some o' ∧ o'.assigned = o.assigned ∧ o'.newKeys = o.newKeys := by
    intro w' j p p' a hj h
    by_cases hij : j = i
    · subst hij
      rw [hi] at hj
      cases hj
      exact ⟨p', h.at hi, h.assigned, h.newKeys⟩
    · refine ⟨o, ?_, rfl, rfl⟩
      rw [h.objs, List.getElem?_set, if_neg hij, hi]
  have app : ∀ q : ARefs, (w.objs ++ [q])[i]? = some o := by
    intro q
    rw [List.getElem?_append_left (List.getElem?_eq_some_iff.1 hi).1, hi]
  cases c with
  | new => exact ⟨o, app _, rfl, rfl⟩
  | set j k v =>
    simp only [AWorld.step]
    cases hj : w.objs[j]? with
    | none => exact ⟨o, hi, rfl, rfl⟩
    | some p =>
      obtain ⟨p', h⟩ := after_set (hw.fine p (List.mem_of_getElem? hj)) hj k v
      exact key hj h
  | del j k =>
    simp only [AWorld.step]
    cases hj : w.objs[j]? with
    | none => exact ⟨o, hi, rfl, rfl⟩
    | some p =>
      obtain ⟨p', h⟩ := after_del (hw.fine p (List.mem_of_getElem? hj)) hj k
      exact key hj h
  | getLog j =>
    simp only [AWorld.step]
    cases hj : w.objs[j]? with
    | none => exact ⟨o, hi, rfl, rfl⟩
    | some p =>
      obtain ⟨p', h, -⟩ := after_getLog (hw.fine p (List.mem_of_getElem? hj)) hj
      exact key hj h
  | consume j =>
    simp only [AWorld.step]
    cases hj : w.objs[j]? with
    | none => exact ⟨o, hi, rfl, rfl⟩
    | some p =>
      obtain ⟨p', h, -⟩ := after_consume (hw.fine p (List.mem_of_getElem? hj)) hj
      exact key hj h
  | copy j =>
    simp only [AWorld.step]
    cases hj : w.objs[j]? with
    | none => exact ⟨o, hi, rfl, rfl⟩
    | some p => exact ⟨o, app _, rfl, rfl⟩

/-- C129, the part that holds of the sets of ids that are handed out: what `assigned_ids` and `new_keys` returned is at any
time later what they would return now. -/
theorem C129_ids_are_live_partial (calls later : List AWorld.Call) (i : Nat) (o : ARefs)
    (hi : (AWorld.run calls).objs[i]? = some o) :
    ∃ o', (AWorld.run (calls ++ later)).objs[i]? = some o' ∧
      (AWorld.run (calls ++ later)).sets (AWorld.assignedIds o) = ((AWorld.run (calls ++ later)).view o').assigned ∧
      (AWorld.run (calls ++ later)).sets o.newKeys = ((AWorld.run (calls ++ later)).view o').newKeys := by
  have key : ∀ (later : List AWorld.Call) {w : AWorld}, WF w → ∀ {o : ARefs}, w.objs[i]? = some o →
      ∃ o', (later.foldl AWorld.step w).objs[i]? = some o' ∧ o'.assigned = o.assigned ∧ o'.newKeys = o.newKeys := by
    intro later
    induction later with
    | nil => intro w _ o h; exact ⟨o, h, rfl, rfl⟩
    | cons c later ih =>
      intro w hw o h
      obtain ⟨o1, h1, h2, h3⟩ := refs_stay hw c h
      obtain ⟨o2, k1, k2, k3⟩ := ih (step_spec hw c).1 h1
      exact ⟨o2, k1, by rw [k2, h2], by rw [k3, h3]⟩
  have hrun : AWorld.run (calls ++ later) = later.foldl AWorld.step (AWorld.run calls) := by
    simp [AWorld.run, List.foldl_append]
  obtain ⟨o', h1, h2, h3⟩ := key later (w := AWorld.run calls) (steps_spec calls wf_empty).1 hi
  rw [hrun]
  refine ⟨o', h1, ?_, ?_⟩
  · simp [AWorld.assignedIds, AWorld.view, h2]
  · simp [AWorld.view, h3]

/-! ### non-vacuity and violation -/
namespace AssignmentObjectsExample

/-- two AssignmentSets, of which the second one is a copy of the first -/
def calls : List AWorld.Call := [.new, .set 0 1 (some true), .set 0 (-2) (some true), .getLog 0, .copy 0, .set 1 1 (some false),
  .consume 0, .del 1 2, .set 0 3 none]
def world : AWorld := AWorld.run calls

/-- what they have: the values of 1, 2, 3, the variables that are seen, assigned and new, the changelog -/
def seenAs (a : ASet) := ([a.data 1, a.data 2, a.data 3], a.seen, a.assigned, a.newKeys, a.getChangelog.2)
example : (world.objs.map world.view).map seenAs =
    [([some true, some false, none], [1, 2, 3], [1, 2], [3], []),
     ([some false, none, none], [1], [1], [1, 2], [(1, (none, some false))])] := by rfl
example : (valueRun calls).map seenAs = (world.objs.map world.view).map seenAs := by rw [world, C129_each_its_own]

/-- C129 fails for the sets of ids: `assigned_ids` hands out the set of the AssignmentSet itself, which changes with it; so
does `new_keys`. -/
theorem C129_violated : ∃ o : ARefs, (AWorld.run [.new, .set 0 1 (some true)]).objs[0]? = some o ∧
    (AWorld.run [.new, .set 0 1 (some true)]).sets (AWorld.assignedIds o) = [1] ∧
    (AWorld.run ([.new, .set 0 1 (some true)] ++ [.set 0 2 (some true), .del 0 1])).sets (AWorld.assignedIds o) = [2] ∧
    (AWorld.run [.new, .set 0 1 (some true)]).sets o.newKeys = [1] ∧
    (AWorld.run ([.new, .set 0 1 (some true)] ++ [.consume 0])).sets o.newKeys = [] :=
  ⟨⟨0, 0, 0, none, 1, 2⟩, rfl, rfl, rfl, rfl, rfl⟩

/-- ... and a caller who changes a changelog that was handed out changes what `get_changelog` returns the next time: here it
is emptied, and the next call returns an empty changelog, whereas it is that of the assignment in between. -/
theorem C129_violated_write :
    ∃ o : ARefs, ∃ r : Nat, (AWorld.run [.new, .set 0 1 (some true), .getLog 0]).objs[0]? = some o ∧ o.cached = some r ∧
    (AWorld.run [.new, .set 0 1 (some true), .getLog 0]).logs r = [(1, (none, some true))] ∧
    ((({ AWorld.run [.new, .set 0 1 (some true), .getLog 0] with logs := fun _ => [] } : AWorld).view o).getChangelog).2 = [] :=
  ⟨⟨0, 0, 0, some 3, 1, 2⟩, 3, rfl, rfl, rfl, rfl⟩

end AssignmentObjectsExample
end Verif.Props
