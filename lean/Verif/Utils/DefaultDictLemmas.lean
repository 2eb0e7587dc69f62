import Verif.Utils.DefaultDict
/-
Lemmas about stores of DefaultOrderedDicts: well-formedness, dictionaries that share nothing with others, and dictionaries that
look alike.
-/
set_option linter.unusedSectionVars false
namespace Verif.Utils
open Verif

variable {K V : Type} [DecidableEq K]

/-- keys are there once, lists exist -/
structure ObjOk (n : Nat) (o : DictObj K) : Prop where
  keys : (dkeys o.items).Nodup
  bound : ∀ kv ∈ o.items, kv.2 < n

theorem ObjOk.mono {n m : Nat} {o : DictObj K} (h : ObjOk n o) (hm : n ≤ m) : ObjOk m o :=
  ⟨h.keys, fun kv hk => Nat.lt_of_lt_of_le (h.bound kv hk) hm⟩

/-- every dictionary is in order -/
def WF (w : Store K V) : Prop := ∀ o ∈ w.dicts, ObjOk w.lists.length o

theorem WF.get {w : Store K V} (h : WF w) {d : Nat} {o : DictObj K} (ho : w.dicts[d]? = some o) : ObjOk w.lists.length o :=
  h o (List.mem_of_getElem? ho)

/-! ## The loops of deep copy and pickle -/

theorem getD_append_left {L E : List (List V)} {a : Nat} (h : a < L.length) : (L ++ E).getD a [] = L.getD a [] := by
  simp [List.getD_eq_getElem?_getD, List.getElem?_append_left h]

theorem getD_append_length {L : List (List V)} (l : List V) (E : List (List V)) : (L ++ [l] ++ E).getD L.length [] = l := by
  simp [List.getD_eq_getElem?_getD]

theorem deepItems_spec (items : Dict K Nat) : ∀ (L : List (List V)), (∀ kv ∈ items, kv.2 < L.length) →
    (∃ E, (deepItems items L).2 = L ++ E) ∧ dkeys (deepItems items L).1 = dkeys items ∧
    (∀ kv ∈ (deepItems items L).1, L.length ≤ kv.2 ∧ kv.2 < (deepItems items L).2.length) ∧
    ((deepItems items L).1.map Prod.snd).Nodup ∧
    (deepItems items L).1.map (fun kv => (kv.1, (deepItems items L).2.getD kv.2 [])) = items.map (fun kv => (kv.1, L.getD kv.2 [])) := by
  induction items with
  | nil => intro L _; simp [deepItems, dkeys]
  | cons kv t ih =>
    intro L hb
    obtain ⟨k, a⟩ := kv
    have hb' : ∀ kv ∈ t, kv.2 < (L ++ [L.getD a []]).length := fun kv hk => by
      have := hb kv (List.mem_cons_of_mem _ hk)
      simp; omega
    obtain ⟨⟨E, hE⟩, h2, h3, h4, h5⟩ := ih _ hb'
    simp only [deepItems]
    refine ⟨⟨L.getD a [] :: E, by rw [hE]; simp⟩, ?_, ?_, ?_, ?_⟩
    · simpa [dkeys] using h2
    · intro kv hk
      rcases List.mem_cons.1 hk with rfl | hk
      · constructor
        · exact Nat.le_refl _
        · rw [hE]; simp
      · have := h3 kv hk
        simp at this
        exact ⟨by omega, this.2⟩
    · simp only [List.map_cons, List.nodup_cons]
      refine ⟨?_, h4⟩
      intro hm
      obtain ⟨kv, hk, e⟩ := List.mem_map.1 hm
      have := (h3 kv hk).1
      simp at this; omega
    · simp only [List.map_cons]
      rw [h5]
      congr 1
      · rw [hE, getD_append_length]
      · apply List.map_congr_left
        intro kv hk
        rw [getD_append_left (hb kv (List.mem_cons_of_mem _ hk))]

/-- what the memo of a pickle knows -/
structure MemoOk (n : Nat) (memo : Dict Nat Nat) (L : List (List V)) : Prop where
  old : ∀ a b, dget memo a = some b → a < n ∧ n ≤ b ∧ b < L.length
  inj : ∀ a a' b, dget memo a = some b → dget memo a' = some b → a = a'
  same : ∀ a b, dget memo a = some b → L.getD b [] = L.getD a []

theorem pickleItems_spec (n : Nat) (items : Dict K Nat) : ∀ (memo : Dict Nat Nat) (L : List (List V)), n ≤ L.length →
    (∀ kv ∈ items, kv.2 < n) → MemoOk n memo L →
    ∃ E memo', (pickleItems items memo L).2 = L ++ E ∧ dkeys (pickleItems items memo L).1 = dkeys items ∧
      MemoOk n memo' (L ++ E) ∧ (∀ a b, dget memo a = some b → dget memo' a = some b) ∧
      (pickleItems items memo L).1.map (fun kv => (kv.1, some kv.2)) = items.map (fun kv => (kv.1, dget memo' kv.2)) := by
  induction items with
  | nil => intro memo L _ _ hm; exact ⟨[], memo, by simp [pickleItems], rfl, by simpa using hm, fun _ _ h => h, rfl⟩
  | cons kv t ih =>
    intro memo L hn hb hm
    obtain ⟨k, a⟩ := kv
    have ha : a < n := hb (k, a) (List.mem_cons_self ..)
    have hb' : ∀ kv ∈ t, kv.2 < n := fun kv hk => hb kv (List.mem_cons_of_mem _ hk)
    cases hg : dget memo a with
    | some b =>
      obtain ⟨E, memo', h1, h2, h3, h4, h5⟩ := ih memo L hn hb' hm
      simp only [pickleItems, hg]
      refine ⟨E, memo', h1, by simpa [dkeys] using h2, h3, h4, ?_⟩
      simp only [List.map_cons]
      rw [h5, h4 a b hg]
    | none =>
      have hm' : MemoOk n (dset memo a L.length) (L ++ [L.getD a []]) := by
        constructor
        · intro x b h
          rw [dget_dset] at h
          split at h
          · next e => subst e; cases h; simp; omega
          · have := hm.old x b h
            simp; omega
        · intro x x' b h h'
          rw [dget_dset] at h h'
          split at h <;> split at h'
          · next e e' => rw [← e, ← e']
          · next e e' => cases h; have := hm.old x' _ h'; omega
          · next e e' => cases h'; have := hm.old x _ h; omega
          · exact hm.inj x x' b h h'
        · intro x b h
          rw [dget_dset] at h
          split at h
          · next e =>
            subst e; cases h
            have := getD_append_length (L := L) (L.getD a []) []
            rw [List.append_nil] at this
            rw [this, getD_append_left (by omega)]
          · have := hm.old x b h
            rw [getD_append_left (by omega), getD_append_left (by omega)]
            exact hm.same x b h
      obtain ⟨E, memo', h1, h2, h3, h4, h5⟩ := ih _ (L ++ [L.getD a []]) (by simp; omega) hb' hm'
      simp only [pickleItems, hg]
      refine ⟨L.getD a [] :: E, memo', by rw [h1]; simp, by simpa [dkeys] using h2, by simpa using h3, ?_, ?_⟩
      · intro x b h
        apply h4
        rw [dget_dset]
        split
        · next e => subst e; rw [hg] at h; cases h
        · exact h
      · simp only [List.map_cons]
        rw [h5, h4 a L.length (by rw [dget_dset]; simp)]

/-! ## Dictionaries that share nothing with others -/

/-- no list is in a dictionary of A and in one that is not in A -/
def Apart (w : Store K V) (A : Nat → Prop) : Prop :=
  ∀ i j o o', A i → ¬ A j → w.dicts[i]? = some o → w.dicts[j]? = some o' → ∀ kv ∈ o.items, ∀ kv' ∈ o'.items, kv.2 ≠ kv'.2

/-- the dictionaries of A are left alone -/
structure Safe (A : Nat → Prop) (w w' : Store K V) : Prop where
  dicts : ∀ i, A i → w'.dicts[i]? = w.dicts[i]?
  lists : ∀ i o, A i → w.dicts[i]? = some o → ∀ kv ∈ o.items, w'.listAt kv.2 = w.listAt kv.2
  wf : WF w'
  apart : Apart w' A
  more : w.dicts.length ≤ w'.dicts.length
  moreLists : w.lists.length ≤ w'.lists.length

theorem Safe.refl {A : Nat → Prop} {w : Store K V} (hw : WF w) (ha : Apart w A) : Safe A w w :=
  ⟨fun _ _ => rfl, fun _ _ _ _ _ _ => rfl, hw, ha, Nat.le_refl _, Nat.le_refl _⟩

theorem Safe.trans {A : Nat → Prop} {w w' w'' : Store K V} (h : Safe A w w') (h' : Safe A w' w'') : Safe A w w'' where
  dicts i hi := (h'.dicts i hi).trans (h.dicts i hi)
  lists i o hi ho kv hk := (h'.lists i o hi (by rw [h.dicts i hi]; exact ho) kv hk).trans (h.lists i o hi ho kv hk)
  wf := h'.wf
  apart := h'.apart
  more := Nat.le_trans h.more h'.more
  moreLists := Nat.le_trans h.moreLists h'.moreLists

theorem Safe.view {A : Nat → Prop} {w w' : Store K V} (h : Safe A w w') {i : Nat} (hi : A i) : w'.view i = w.view i := by
  unfold Store.view
  rw [h.dicts i hi]
  cases ho : w.dicts[i]? with
  | none => rfl
  | some o =>
    simp only [Option.map_some]
    congr 1
    apply List.map_congr_left
    intro kv hk
    rw [h.lists i o hi ho kv hk]

theorem safe_newList {A : Nat → Prop} {w : Store K V} (hw : WF w) (ha : Apart w A) (l : List V) : Safe A w (w.newList l).1 where
  dicts _ _ := rfl
  lists i o _ ho kv hk := getD_append_left ((hw.get ho).bound kv hk)
  wf o ho := (hw o ho).mono (by simp [Store.newList])
  apart := ha
  more := Nat.le_refl _
  moreLists := by simp [Store.newList]

theorem safe_setDict {A : Nat → Prop} {w : Store K V} (hw : WF w) (ha : Apart w A) {d : Nat} {o' : DictObj K} (hd : ¬ A d)
    (hok : ObjOk w.lists.length o') (hap : ∀ i o, A i → w.dicts[i]? = some o → ∀ kv ∈ o.items, ∀ kv' ∈ o'.items, kv.2 ≠ kv'.2) :
    Safe A w (w.setDict d o') where
  dicts i hi := by
    have : d ≠ i := fun e => hd (e ▸ hi)
    simp [Store.setDict, List.getElem?_set_ne this]
  lists _ _ _ _ _ _ := rfl
  wf o ho := by
    rcases List.mem_or_eq_of_mem_set ho with h | rfl
    · exact hw o h
    · exact hok
  apart i j o o'' hi hj ho ho' kv hk kv' hk' := by
    have hdi : d ≠ i := fun e => hd (e ▸ hi)
    simp only [Store.setDict, List.getElem?_set_ne hdi] at ho
    by_cases e : d = j
    · subst e
      simp only [Store.setDict, List.getElem?_set] at ho'
      split at ho'
      · split at ho'
        · cases ho'
          exact hap i o hi ho kv hk kv' hk'
        · cases ho'
      · exact ha i d o o'' hi hj ho ho' kv hk kv' hk'
    · simp only [Store.setDict, List.getElem?_set_ne e] at ho'
      exact ha i j o o'' hi hj ho ho' kv hk kv' hk'
  more := by simp [Store.setDict]
  moreLists := Nat.le_refl _

theorem safe_newDict {A : Nat → Prop} {w : Store K V} (hA : ∀ i, A i → i < w.dicts.length) (hw : WF w) (ha : Apart w A)
    {o' : DictObj K} (hok : ObjOk w.lists.length o')
    (hap : ∀ i o, A i → w.dicts[i]? = some o → ∀ kv ∈ o.items, ∀ kv' ∈ o'.items, kv.2 ≠ kv'.2) : Safe A w (w.newDict o') where
  dicts i hi := by simp [Store.newDict, List.getElem?_append_left (hA i hi)]
  lists _ _ _ _ _ _ := rfl
  wf o ho := by
    rcases List.mem_append.1 ho with h | h
    · exact hw o h
    · rw [List.mem_singleton] at h; subst h; exact hok
  apart i j o o'' hi hj ho ho' kv hk kv' hk' := by
    simp only [Store.newDict, List.getElem?_append_left (hA i hi)] at ho
    have hmem : o'' ∈ w.dicts ++ [o'] := List.mem_of_getElem? ho'
    by_cases hlt : j < w.dicts.length
    · simp only [Store.newDict, List.getElem?_append_left hlt] at ho'
      exact ha i j o o'' hi hj ho ho' kv hk kv' hk'
    · simp only [Store.newDict, List.getElem?_append_right (Nat.le_of_not_lt hlt)] at ho'
      have : o'' ∈ [o'] := List.mem_of_getElem? ho'
      rw [List.mem_singleton] at this; subst this
      exact hap i o hi ho kv hk kv' hk'
  more := by simp [Store.newDict]
  moreLists := Nat.le_refl _

theorem listAt_appendTo (w : Store K V) (a b : Nat) (x : V) :
    (w.appendTo a x).listAt b = if a = b ∧ b < w.lists.length then w.listAt b ++ [x] else w.listAt b := by
  unfold Store.appendTo Store.listAt
  simp only [List.getD_eq_getElem?_getD, List.getElem?_set]
  by_cases e : a = b
  · subst e
    by_cases h : a < w.lists.length <;> simp [h]
  · simp [e]

theorem safe_appendTo {A : Nat → Prop} {w : Store K V} (hw : WF w) (ha : Apart w A) {a : Nat} (x : V)
    (hap : ∀ i o, A i → w.dicts[i]? = some o → ∀ kv ∈ o.items, kv.2 ≠ a) : Safe A w (w.appendTo a x) where
  dicts _ _ := rfl
  lists i o hi ho kv hk := by
    rw [listAt_appendTo, if_neg]
    rintro ⟨e, -⟩
    exact hap i o hi ho kv hk e.symm
  wf o ho := (hw o ho).mono (by simp [Store.appendTo])
  apart := ha
  more := Nat.le_refl _
  moreLists := by simp [Store.appendTo]

/-- a lookup in a dictionary that is not in A gives a list that is in no dictionary of A -/
theorem safe_get {A : Nat → Prop} {w : Store K V} (hw : WF w) (ha : Apart w A) {d : Nat} (hd : ¬ A d) (k : K) :
    Safe A w (w.get d k).2 ∧ ∀ a, (w.get d k).1 = .ok a → a < (w.get d k).2.lists.length ∧
      ∀ i o, A i → (w.get d k).2.dicts[i]? = some o → ∀ kv ∈ o.items, kv.2 ≠ a := by
  unfold Store.get
  cases ho : w.dicts[d]? with
  | none => exact ⟨Safe.refl hw ha, fun a h => by cases h⟩
  | some o =>
    cases hg : dget o.items k with
    | some b =>
      simp only [hg]
      refine ⟨Safe.refl hw ha, fun a h => ?_⟩
      cases h
      have hm := mem_of_dget hg
      exact ⟨(hw.get ho).bound _ hm, fun i o' hi ho' kv hk => ha i d o' o hi hd ho' ho kv hk _ hm⟩
    | none =>
      simp only [hg]
      by_cases hf : o.factory = true
      · simp only [hf, if_true]
        have h1 := safe_newList hw ha ([] : List V)
        have hok : ObjOk (w.newList ([] : List V)).1.lists.length { o with items := dset o.items k w.lists.length } := by
          constructor
          · exact nodup_dkeys_dset (hw.get ho).keys _ _
          · intro kv hk
            rcases mem_dset hk with ⟨-, e⟩ | h
            · rw [e]; simp [Store.newList]
            · have := (hw.get ho).bound _ h
              simp [Store.newList]; omega
        have hap : ∀ i o', A i → (w.newList ([] : List V)).1.dicts[i]? = some o' → ∀ kv ∈ o'.items,
            ∀ kv' ∈ dset o.items k w.lists.length, kv.2 ≠ kv'.2 := by
          intro i o' hi ho' kv hk kv' hk'
          rcases mem_dset hk' with ⟨-, e⟩ | h
          · have := (hw.get ho').bound _ hk
            rw [e]; omega
          · exact ha i d o' o hi hd ho' ho kv hk _ h
        have h2 := safe_setDict h1.wf h1.apart (d := d) (o' := { o with items := dset o.items k w.lists.length }) hd hok hap
        rw [hf] at h2
        refine ⟨h1.trans h2, fun a h => ?_⟩
        cases h
        refine ⟨by simp [Store.newList, Store.setDict], fun i o' hi ho' kv hk => ?_⟩
        have hdi : d ≠ i := fun e => hd (e ▸ hi)
        simp only [Store.newList, Store.setDict, List.getElem?_set_ne hdi] at ho'
        have := (hw.get ho').bound _ hk
        simp only [Store.newList]
        omega
      · simp only [hf]
        exact ⟨Safe.refl hw ha, fun a h => by cases h⟩

theorem safe_put {A : Nat → Prop} {w : Store K V} (hw : WF w) (ha : Apart w A) {d : Nat} (hd : ¬ A d) (k : K) {a : Nat}
    (hb : a < w.lists.length) (hap : ∀ i o, A i → w.dicts[i]? = some o → ∀ kv ∈ o.items, kv.2 ≠ a) :
    Safe A w (w.put d k a).2 := by
  unfold Store.put
  cases ho : w.dicts[d]? with
  | none => exact Safe.refl hw ha
  | some o =>
    refine safe_setDict hw ha hd ⟨nodup_dkeys_dset (hw.get ho).keys _ _, fun kv hk => ?_⟩ ?_
    · rcases mem_dset hk with ⟨-, e⟩ | h
      · rw [e]; exact hb
      · exact (hw.get ho).bound _ h
    · intro i o' hi ho' kv hk kv' hk'
      rcases mem_dset hk' with ⟨-, e⟩ | h
      · rw [e]; exact hap i o' hi ho' kv hk
      · exact ha i d o' o hi hd ho' ho kv hk _ h

/-- the dictionary of a deep copy -/
theorem deep_ok {w : Store K V} (hw : WF w) {d : Nat} {o : DictObj K} (ho : w.dicts[d]? = some o) :
    ObjOk (deepItems o.items w.lists).2.length ⟨(deepItems o.items w.lists).1, o.factory⟩ := by
  obtain ⟨-, h2, h3, -⟩ := deepItems_spec o.items w.lists (hw.get ho).bound
  exact ⟨by show (dkeys _).Nodup; rw [h2]; exact (hw.get ho).keys, fun kv hk => (h3 kv hk).2⟩

theorem memo_nil (L : List (List V)) : MemoOk L.length [] L :=
  ⟨fun _ _ h => (by cases h), fun _ _ _ h => (by cases h), fun _ _ h => (by cases h)⟩

/-- the items of an unpickled dictionary -/
theorem pickle_spec {w : Store K V} (hw : WF w) {d : Nat} {o : DictObj K} (ho : w.dicts[d]? = some o) :
    ∃ E memo, (pickleItems o.items [] w.lists).2 = w.lists ++ E ∧ dkeys (pickleItems o.items [] w.lists).1 = dkeys o.items ∧
      MemoOk w.lists.length memo (w.lists ++ E) ∧
      (pickleItems o.items [] w.lists).1.map (fun kv => (kv.1, some kv.2)) = o.items.map (fun kv => (kv.1, dget memo kv.2)) := by
  obtain ⟨E, memo, h1, h2, h3, -, h5⟩ := pickleItems_spec w.lists.length o.items [] w.lists (Nat.le_refl _) (hw.get ho).bound (memo_nil _)
  exact ⟨E, memo, h1, h2, h3, h5⟩

theorem pickle_bound {w : Store K V} (hw : WF w) {d : Nat} {o : DictObj K} (ho : w.dicts[d]? = some o) :
    ∀ kv ∈ (pickleItems o.items [] w.lists).1, w.lists.length ≤ kv.2 ∧ kv.2 < (pickleItems o.items [] w.lists).2.length := by
  obtain ⟨E, memo, h1, h2, h3, h5⟩ := pickle_spec hw ho
  intro kv hk
  have : (kv.1, some kv.2) ∈ o.items.map (fun kv => (kv.1, dget memo kv.2)) := by
    rw [← h5]; exact List.mem_map.2 ⟨kv, hk, rfl⟩
  obtain ⟨kv', -, e⟩ := List.mem_map.1 this
  have e2 : dget memo kv'.2 = some kv.2 := (Prod.mk.inj e).2
  have := h3.old _ _ e2
  rw [h1]
  omega

/-- the lists get more -/
theorem safe_lists {A : Nat → Prop} {w : Store K V} (hw : WF w) (ha : Apart w A) {L : List (List V)} (h : ∃ E, L = w.lists ++ E) :
    Safe A w { w with lists := L } := by
  obtain ⟨E, rfl⟩ := h
  exact
    { dicts := fun _ _ => rfl
      lists := fun i o _ ho kv hk => getD_append_left ((hw.get ho).bound kv hk)
      wf := fun o ho => (hw o ho).mono (by simp)
      apart := ha
      more := Nat.le_refl _
      moreLists := by simp }

/-- a call that names no dictionary of A leaves them alone -/
theorem safe_call {A : Nat → Prop} {w : Store K V} (hA : ∀ i, A i → i < w.dicts.length) (hw : WF w) (ha : Apart w A)
    (c : DCall K V) (hc : ∀ d ∈ c.names, ¬ A d) : Safe A w (w.call c).2 := by
  cases c with
  | create => exact safe_newDict hA hw ha ⟨List.nodup_nil, by simp⟩ (by simp)
  | get d k =>
    have h := (safe_get hw ha (hc d (by simp [DCall.names])) k).1
    rcases hg : w.get d k with ⟨r, w'⟩
    rw [hg] at h
    simp only [Store.call, hg]
    cases r <;> exact h
  | append d k x =>
    have h := safe_get hw ha (hc d (by simp [DCall.names])) k
    rcases hg : w.get d k with ⟨r, w'⟩
    rw [hg] at h
    simp only [Store.call, hg]
    cases r with
    | error e => exact h.1
    | ok a => exact h.1.trans (safe_appendTo h.1.wf h.1.apart x (h.2 a rfl).2)
  | assign d k l =>
    have h := safe_newList hw ha l
    refine h.trans (safe_put h.wf h.apart (hc d (by simp [DCall.names])) k (by simp [Store.newList]) ?_)
    intro i o hi ho kv hk
    have := (hw.get ho).bound _ hk
    simp only [Store.newList]; omega
  | share d k e k' =>
    have h := safe_get hw ha (hc e (by simp [DCall.names])) k'
    rcases hg : w.get e k' with ⟨r, w'⟩
    rw [hg] at h
    simp only [Store.call, hg]
    cases r with
    | error e => exact h.1
    | ok a => exact h.1.trans (safe_put h.1.wf h.1.apart (hc d (by simp [DCall.names])) k (h.2 a rfl).1 (h.2 a rfl).2)
  | pop d k =>
    cases ho : w.dicts[d]? with
    | none => simp only [Store.call, ho]; exact Safe.refl hw ha
    | some o =>
      cases hg : dget o.items k with
      | none => simp only [Store.call, ho, hg]; exact Safe.refl hw ha
      | some a =>
        simp only [Store.call, ho, hg]
        have hd := hc d (by simp [DCall.names])
        refine safe_setDict hw ha hd ⟨?_, fun kv hk => (hw.get ho).bound _ (List.mem_filter.1 hk).1⟩ ?_
        · exact List.Sublist.nodup (List.Sublist.map _ List.filter_sublist) (hw.get ho).keys
        · intro i o' hi ho' kv hk kv' hk'
          exact ha i d o' o hi hd ho' ho kv hk _ (List.mem_filter.1 hk').1
  | copy d =>
    cases ho : w.dicts[d]? with
    | none => simp only [Store.call, ho]; exact Safe.refl hw ha
    | some o =>
      simp only [Store.call, ho]
      have hd := hc d (by simp [DCall.names])
      refine safe_newDict hA hw ha (hw.get ho) ?_
      intro i o' hi ho' kv hk kv' hk'
      exact ha i d o' o hi hd ho' ho kv hk _ hk'
  | deepcopy d =>
    cases ho : w.dicts[d]? with
    | none => simp only [Store.call, ho]; exact Safe.refl hw ha
    | some o =>
      simp only [Store.call, ho]
      obtain ⟨h1, -, h3, -⟩ := deepItems_spec o.items w.lists (hw.get ho).bound
      have h := safe_lists hw ha h1
      refine h.trans (safe_newDict (w := { w with lists := (deepItems o.items w.lists).2 }) hA h.wf h.apart (deep_ok hw ho) ?_)
      intro i o' hi ho' kv hk kv' hk'
      have a1 := (hw.get ho').bound _ hk
      have a2 := (h3 _ hk').1
      omega
  | pickle d =>
    cases ho : w.dicts[d]? with
    | none => simp only [Store.call, ho]; exact Safe.refl hw ha
    | some o =>
      simp only [Store.call, ho]
      split
      · obtain ⟨E, memo, h1, h2, -⟩ := pickle_spec hw ho
        have h := safe_lists hw ha ⟨E, h1⟩
        refine h.trans (safe_newDict (w := { w with lists := (pickleItems o.items [] w.lists).2 })
          (o' := ⟨(pickleItems o.items [] w.lists).1, false⟩) hA h.wf h.apart ⟨?_, fun kv hk => (pickle_bound hw ho kv hk).2⟩ ?_)
        · show (dkeys _).Nodup
          rw [h2]; exact (hw.get ho).keys
        · intro i o' hi ho' kv hk kv' hk'
          have a1 := (hw.get ho').bound _ hk
          have a2 := (pickle_bound hw ho _ hk').1
          omega
      · exact Safe.refl hw ha

theorem apart_none (w : Store K V) : Apart w (fun _ => False) := fun _ _ _ _ h => h.elim

theorem wf_call {w : Store K V} (hw : WF w) (c : DCall K V) : WF (w.call c).2 :=
  (safe_call (A := fun _ => False) (fun _ h => h.elim) hw (apart_none w) c (fun _ _ h => h)).wf

theorem wf_run {w : Store K V} (hw : WF w) (cs : List (DCall K V)) : WF (w.run cs).2 := by
  induction cs generalizing w with
  | nil => exact hw
  | cons c cs ih => exact ih (wf_call hw c)

theorem Reachable.wf {w : Store K V} (h : Reachable w) : WF w := by
  obtain ⟨cs, rfl⟩ := h
  exact wf_run (by intro o ho; cases ho) cs

theorem safe_run {A : Nat → Prop} (cs : List (DCall K V)) : ∀ {w : Store K V}, (∀ i, A i → i < w.dicts.length) → WF w → Apart w A →
    (∀ c ∈ cs, ∀ d ∈ c.names, ¬ A d) → Safe A w (w.run cs).2 := by
  induction cs with
  | nil => intro w _ hw ha _; exact Safe.refl hw ha
  | cons c cs ih =>
    intro w hA hw ha hc
    have h := safe_call hA hw ha c (hc c (List.mem_cons_self ..))
    exact h.trans (ih (fun i hi => Nat.lt_of_lt_of_le (hA i hi) h.more) h.wf h.apart (fun c' h' => hc c' (List.mem_cons_of_mem _ h')))

end Verif.Utils
