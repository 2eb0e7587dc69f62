import Verif.Solve.TransactionLemmas
import Verif.Solve.PruneLemmas
import Verif.Solve.Total
import Verif.Sat.Policy
import Mathlib.Data.List.Forall2
/-
The iteration orders of sets that do not matter: a transaction depends on its decisions and on the installed packages only
as sets.
-/
set_option linter.unusedSectionVars false
namespace Verif.Solve
open Verif Verif.Pkg Verif.Graph Verif.Props Verif.Rules

/-! ### lists -/

theorem mapE_perm {ε α β : Type} {f : α → Except ε β} {xs ys : List α} (hp : xs.Perm ys) {l : List β} (h : mapE f xs = .ok l) :
    ∃ l', mapE f ys = .ok l' ∧ l.Perm l' := by
  induction hp generalizing l with
  | nil => exact ⟨l, h, .refl _⟩
  | cons x _ ih =>
    obtain ⟨y, t, h1, h2, rfl⟩ := mapE_cons_ok.1 h
    obtain ⟨l', h3, h4⟩ := ih h2
    exact ⟨y :: l', mapE_cons_ok.2 ⟨y, l', h1, h3, rfl⟩, h4.cons y⟩
  | swap x x' xs =>
    obtain ⟨y, t, h1, h2, rfl⟩ := mapE_cons_ok.1 h
    obtain ⟨y', t', h3, h4, rfl⟩ := mapE_cons_ok.1 h2
    exact ⟨y' :: y :: t', mapE_cons_ok.2 ⟨y', y :: t', h3, mapE_cons_ok.2 ⟨y, t', h1, h4, rfl⟩, rfl⟩, .swap _ _ _⟩
  | trans _ _ ih1 ih2 =>
    obtain ⟨l1, h1, h2⟩ := ih1 h
    obtain ⟨l2, h3, h4⟩ := ih2 h1
    exact ⟨l2, h3, h2.trans h4⟩

theorem mapE_congr {ε α β : Type} {f g : α → Except ε β} {xs : List α} (h : ∀ x ∈ xs, f x = g x) : mapE f xs = mapE g xs := by
  induction xs with
  | nil => rfl
  | cons x xs ih =>
    simp only [mapE, h x (by simp), ih (fun y hy => h y (by simp [hy]))]

theorem fromkeys_perm {α : Type} [DecidableEq α] {l l' : List α} (h : ∀ x, x ∈ l ↔ x ∈ l') : (fromkeys l).Perm (fromkeys l') := by
  rw [List.perm_ext_iff_of_nodup (nodup_fromkeys _) (nodup_fromkeys _)]
  intro x
  rw [mem_fromkeys, mem_fromkeys, h]

/-! ### toposort -/

theorem topoData_perm {α : Type} [DecidableEq α] {g g' : Adj α} (h : g.Perm g') : (topoData g).Perm (topoData g') := by
  unfold topoData
  simp only
  have h1 : (g.map (fun kv => (kv.1, sdiscard kv.1 kv.2))).Perm (g'.map (fun kv => (kv.1, sdiscard kv.1 kv.2))) := h.map _
  generalize g.map (fun kv => (kv.1, sdiscard kv.1 kv.2)) = d at h1 ⊢
  generalize g'.map (fun kv => (kv.1, sdiscard kv.1 kv.2)) = d' at h1 ⊢
  refine h1.append (List.Perm.map _ ?_)
  have h2 : (fun x => decide (x ∉ d.map Prod.fst)) = (fun x => decide (x ∉ d'.map Prod.fst)) := by
    funext x
    simp only [(h1.map Prod.fst).mem_iff]
  rw [h2]
  refine List.Perm.filter _ (fromkeys_perm ?_)
  intro x
  exact (h1.flatMap_right _).mem_iff

theorem topoReady_perm {α : Type} {d d' : Adj α} (h : d.Perm d') : (topoReady d).Perm (topoReady d') :=
  (h.filter _).map _

theorem topoRest_perm {α : Type} [DecidableEq α] {d d' : Adj α} (h : d.Perm d') {o o' : List α} (ho : ∀ x, x ∈ o ↔ x ∈ o') :
    (topoRest d o).Perm (topoRest d' o') := by
  have h2 : ∀ x, decide (x ∉ o') = decide (x ∉ o) := fun x => by simp only [ho]
  unfold topoRest
  simp only [h2]
  exact (h.filter _).map _

theorem topoLoop_perm {α : Type} [DecidableEq α] (n : Nat) {d d' : Adj α} (h : d.Perm d') :
    List.Forall₂ List.Perm (topoLoop n d).1 (topoLoop n d').1 ∧ ((topoLoop n d).2 = .done → (topoLoop n d').2 = .done) := by
  induction n generalizing d d' with
  | zero => exact ⟨.nil, fun h => by cases h⟩
  | succ n ih =>
    simp only [topoLoop]
    have hr := topoReady_perm h
    by_cases he : topoReady d = []
    · have he' : topoReady d' = [] := by rw [he] at hr; exact hr.nil_eq.symm
      rw [if_pos he, if_pos he']
      refine ⟨.nil, ?_⟩
      by_cases hd : d = []
      · subst hd
        have hd' : d' = [] := h.nil_eq.symm
        subst hd'
        exact fun h => h
      · simp only [if_neg hd]; intro h; cases h
    · have he' : topoReady d' ≠ [] := fun e => he (by rw [e] at hr; exact hr.eq_nil)
      rw [if_neg he, if_neg he']
      obtain ⟨h1, h2⟩ := ih (topoRest_perm h (fun x => hr.mem_iff))
      exact ⟨.cons hr h1, h2⟩

theorem toposort_perm {α : Type} [DecidableEq α] {g g' : Adj α} (h : g.Perm g') :
    List.Forall₂ List.Perm (toposort g).1 (toposort g').1 ∧ ((toposort g).2 = .done → (toposort g').2 = .done) := by
  unfold toposort
  have h1 := topoData_perm h
  rw [← h1.length_eq]
  exact topoLoop_perm _ h1

variable {N S U : Type} [LinearOrder N] [DecidableEq S] [LinearOrder U] [Syntax S U]

/-! ### the graph -/

theorem depLits_congr (pool : Pool N S U) (closed : Bool) {m m' : Dict Nat Int} (h : ∀ i, dget m i = dget m' i)
    (ds : List (Package N S U)) : depLits pool closed m ds = depLits pool closed m' ds := by
  induction ds with
  | nil => rfl
  | cons d ds ih => simp only [depLits, h, ih]

theorem depEdges_congr (pool : Pool N S U) (closed : Bool) {m m' : Dict Nat Int} (h : ∀ i, dget m i = dget m' i)
    (cs : List (CTuple N S)) (acc : List Int) : depEdges pool closed m cs acc = depEdges pool closed m' cs acc := by
  induction cs generalizing acc with
  | nil => rfl
  | cons c cs ih => simp only [depEdges, depLits_congr pool closed h, ih]

theorem graph_perm {pool : Pool N S U} {D D' : List Int} (hc : ∀ l ∈ D, -l ∉ D) (hm : ∀ l, l ∈ D ↔ l ∈ D') {g : Adj Int}
    (h : packageLitDependencyGraph pool D true = .ok g) :
    ∃ g', packageLitDependencyGraph pool D' true = .ok g' ∧ g.Perm g' := by
  have hc' : ∀ l ∈ D', -l ∉ D' := fun l hl hl' => hc l ((hm l).2 hl) ((hm _).2 hl')
  have hid : ∀ i, dget (dictOf (D.map (fun l => (l.natAbs, l)))) i = dget (dictOf (D'.map (fun l => (l.natAbs, l)))) i := by
    intro i
    apply Option.ext
    intro y
    rw [idMap_spec hc, idMap_spec hc', hm]
  unfold packageLitDependencyGraph at h ⊢
  cases hp : mapE (litPackage pool) (fromkeys D) with
  | error e => simp only [hp] at h; cases h
  | ok packages =>
    simp only [hp] at h
    obtain ⟨packages', hp', hperm⟩ := mapE_perm (fromkeys_perm hm) hp
    obtain ⟨g', hg', hperm'⟩ := mapE_perm hperm h
    refine ⟨g', ?_, hperm'⟩
    simp only [hp']
    rw [← hg']
    refine mapE_congr (fun lp _ => ?_)
    unfold nodeItem
    rw [depEdges_congr pool true hid]

/-! ### the operations -/

theorem sortOut_congr {D D' : List Int} {inst inst' : List Nat} (hD : ∀ l, l ∈ D ↔ l ∈ D') (hI : ∀ i, i ∈ inst ↔ i ∈ inst')
    (ls : List Int) (acc : List Nat × List Nat) : sortOut D inst ls acc = sortOut D' inst' ls acc := by
  induction ls generalizing acc with
  | nil => rfl
  | cons l ls ih =>
    obtain ⟨r, i⟩ := acc
    simp only [sortOut, hD, hI, ih]

theorem installLoop_congr {pool : Pool N S U} {loc loc' : Dict (N × Version U) Nat} (h : ∀ k, dget loc k = dget loc' k)
    (is : List Nat) (ps : List (Package N S U)) (rem : List Nat) :
    installLoop pool loc is ps rem = installLoop pool loc' is ps rem := by
  induction is generalizing ps rem with
  | nil => rfl
  | cons i is ih => simp only [installLoop, h, ih]

theorem sortGroups_eq {D : List Int} (hc : ∀ l ∈ D, -l ∉ D) {gs gs' : List (List Int)} (h : List.Forall₂ List.Perm gs gs')
    (hm : ∀ gr ∈ gs, ∀ l ∈ gr, l ∈ D) : gs.flatMap (fun g => sortBy iabs g) = gs'.flatMap (fun g => sortBy iabs g) := by
  induction h with
  | nil => rfl
  | @cons a b as bs h1 _ ih =>
    rw [List.flatMap_cons, List.flatMap_cons, ih (fun gr hgr => hm gr (by simp [hgr]))]
    congr 1
    refine sortBy_perm_eq iabs h1 ?_
    intro x hx y hy e
    have hx := hm a (by simp) x hx
    have hy := hm a (by simp) y hy
    rcases (iabs_eq_iff x y).1 e with h | h
    · exact h
    · subst h; exact absurd hx (hc y hy)

theorem localPackages_congr {pool : Pool N S U} {inst inst' : List Nat} (hI : ∀ i, i ∈ inst ↔ i ∈ inst')
    (hd : ∀ i ∈ inst, ∀ j ∈ inst, packageKey pool i = packageKey pool j → i = j) {loc : Dict (N × Version U) Nat}
    (h : localPackages pool inst = .ok loc) :
    ∃ loc', localPackages pool inst' = .ok loc' ∧ ∀ k, dget loc k = dget loc' k := by
  have hall : ∀ i ∈ inst', ∃ y, keyItem pool i = .ok y := by
    intro i hi
    unfold localPackages at h
    cases hx : mapE (keyItem pool) inst with
    | error e => rw [hx] at h; cases h
    | ok items =>
      obtain ⟨y, -, hy⟩ := mapE_all hx ((hI i).2 hi)
      exact ⟨y, hy⟩
  obtain ⟨l, hl⟩ := mapE_ok_of hall
  have hl' : localPackages pool inst' = .ok (dictOf l) := by unfold localPackages; rw [hl]
  refine ⟨_, hl', fun k => ?_⟩
  have s1 := localPackages_spec h k
  have s2 := localPackages_spec hl' k
  apply Option.ext
  intro j
  constructor
  · intro hj
    obtain ⟨h1, h2⟩ := s1.1 j hj
    have h3 := s2.2 j ((hI j).1 h1) h2
    cases hx : dget (dictOf l) k with
    | none => exact absurd hx h3
    | some j' =>
      obtain ⟨h4, h5⟩ := s2.1 j' hx
      rw [hd j h1 j' ((hI j').2 h4) (h2.trans h5.symm)]
  · intro hj
    obtain ⟨h1, h2⟩ := s2.1 j hj
    have h3 := s1.2 j ((hI j).2 h1) h2
    cases hx : dget loc k with
    | none => exact absurd hx h3
    | some j' =>
      obtain ⟨h4, h5⟩ := s1.1 j' hx
      rw [hd j ((hI j).2 h1) j' h4 (h2.trans h5.symm)]

/-- A transaction depends on the decisions and on the installed packages as sets. -/
theorem mkTransaction_sets {pool : Pool N S U} {avail : List (Package N S U)} (hok : pool.OK avail) {D D' : List Int}
    (hD : Decisions pool D) (hm : ∀ l, l ∈ D ↔ l ∈ D') {inst inst' : List Nat} (hI : ∀ i, i ∈ inst ↔ i ∈ inst')
    (hd : ∀ i ∈ inst, ∀ j ∈ inst, packageKey pool i = packageKey pool j → i = j) {t : Transaction N S U}
    (h : mkTransaction pool D inst = .ok t) : mkTransaction pool D' inst' = .ok t := by
  unfold mkTransaction at h ⊢
  cases hl : localPackages pool inst with
  | error e => rw [hl] at h; cases h
  | ok loc =>
    obtain ⟨loc', hl', hloc⟩ := localPackages_congr hI hd hl
    rw [hl] at h
    rw [hl']
    simp only at h ⊢
    suffices K : ∀ ops, safeOperations pool D inst loc = .ok ops → safeOperations pool D' inst' loc' = .ok ops by
      cases hs : safeOperations pool D inst loc with
      | error e => rw [hs] at h; cases h
      | ok ops => rw [K ops hs]; rw [hs] at h; exact h
    intro ops hs
    unfold safeOperations at hs ⊢
    cases hg : packageLitDependencyGraph pool D true with
    | error e => rw [hg] at hs; cases hs
    | ok g =>
      obtain ⟨g', hg', hperm⟩ := graph_perm hD.consistent hm hg
      rw [hg] at hs
      rw [hg']
      simp only at hs ⊢
      obtain ⟨ht1, ht2⟩ := toposort_perm hperm
      have hnd := graph_nodup hg
      cases ht : toposort g with
      | mk groups e =>
        rw [ht] at hs ht1 ht2
        cases e with
        | outOfFuel => cases hs
        | cyclic r => cases hs
        | done =>
          have ht2 := ht2 rfl
          cases ht' : toposort g' with
          | mk groups' e' =>
            rw [ht'] at ht1 ht2
            simp only at ht1 ht2
            subst ht2
            simp only at hs ⊢
            have hmem : ∀ gr ∈ groups, ∀ l ∈ gr, l ∈ D := by
              intro gr hgr l hl
              have : l ∈ litOrder g := by
                unfold litOrder
                rw [ht, List.mem_flatMap]
                exact ⟨gr, hgr, by rw [mem_sortBy]; exact hl⟩
              rw [mem_litOrder hnd (by rw [ht])] at this
              rcases this with h | ⟨y, he⟩
              · rw [graph_keys hg, mem_fromkeys] at h; exact h
              · exact (graph_edge_mem hok hD hg he).2
            rw [← sortGroups_eq hD.consistent ht1 hmem, ← sortOut_congr hm hI]
            cases hso : sortOut D inst (groups.flatMap (fun g => sortBy iabs g)) ([], []) with
            | error e => rw [hso] at hs; cases hs
            | ok ri =>
              rw [hso] at hs
              simp only at hs ⊢
              rw [← installLoop_congr hloc]
              exact hs

/-! ### pruning -/

theorem Included.mem_iff {f : Int → Except PErr (List Int)} {rs rs' l l' : List Int} (hr : ∀ x, x ∈ rs ↔ x ∈ rs')
    (h : Included f rs l) (h' : Included f rs' l') (x : Int) : x ∈ l ↔ x ∈ l' := by
  have key : ∀ {rs rs' l l' : List Int}, (∀ x, x ∈ rs → x ∈ rs') → Included f rs l → Included f rs' l' → x ∈ l → x ∈ l' := by
    intro rs rs' l l' hr h h' hx
    obtain ⟨r, h1, h2⟩ := h.reach x hx
    clear hx
    induction h2 with
    | refl => exact h'.start r (hr r h1)
    | tail _ hs ih =>
      obtain ⟨nb, h3, h4⟩ := hs
      obtain ⟨nb', h5, h6⟩ := h'.closed _ ih
      rw [h3] at h5; cases h5
      exact h6 _ h4
  exact ⟨key (fun x => (hr x).1) h h', key (fun x => (hr x).2) h' h⟩

/-- Pruning keeps the same literals whatever the order in which the roots, the nodes and the root ids are gone through. -/
theorem connectedPackages_sets {o o' : Orders} {pool : Pool N S U} {solution : List Int} {rootIds rootIds' : List Nat}
    (hI : ∀ i, i ∈ rootIds ↔ i ∈ rootIds') {D : List Int} (h : connectedPackages o pool solution rootIds = .ok D) :
    ∃ D', connectedPackages o' pool solution rootIds' = .ok D' ∧ ∀ l, l ∈ D ↔ l ∈ D' := by
  unfold connectedPackages at h ⊢
  cases hrn : mapE (fun (i : Nat) => getNames pool (i : Int)) rootIds with
  | error e => rw [hrn] at h; cases h
  | ok rootNames =>
    rw [hrn] at h
    obtain ⟨rootNames', hrn'⟩ := mapE_ok_of (f := fun (i : Nat) => getNames pool (i : Int)) (xs := rootIds') (by
      intro i hi
      obtain ⟨y, -, hy⟩ := mapE_all hrn ((hI i).2 hi)
      exact ⟨y, hy⟩)
    rw [hrn']
    simp only at h ⊢
    cases hit : mapE (nameItems pool) solution with
    | error e => rw [hit] at h; cases h
    | ok items =>
      rw [hit] at h
      simp only at h ⊢
      have hn : ∀ n, n ∈ rootNames'.flatten ↔ n ∈ rootNames.flatten := by
        intro n
        rw [rootNames_iff hrn, rootNames_iff hrn']
        simp only [hI]
      simp only [hn]
      have hset := fun l => @rootSet_iff _ _ _ _ _ _ _ pool items rootIds rootNames hrn l
      generalize fromkeys (((dictOf items.flatten).filter
        (fun nl => decide (nl.1 ∈ rootNames.flatten))).map Prod.snd) = roots at h hset ⊢
      have hsound := fun n l => @nameToId_sound _ _ _ _ _ _ _ _ _ _ hit n l
      have hV : ∀ x ∈ solution, ∀ y, Step (neighborFunc pool (dictOf items.flatten)) x y → y ∈ solution := by
        rintro x - y ⟨nb, h1, h2⟩
        obtain ⟨-, p, -, -, h3⟩ := neighborFunc_ok h1
        obtain ⟨t, -, h4⟩ := h3 y h2
        exact (hsound _ _ h4).1
      have hrV : ∀ r ∈ roots, r ∈ solution := by
        intro r hr
        rw [hset] at hr
        obtain ⟨n, h1, -⟩ := hr
        exact (hsound _ _ h1).1
      cases hinc : includeAll o.pop (neighborFunc pool (dictOf items.flatten)) (solution.length + 2) (o.roots roots) [] with
      | error e => rw [hinc] at h; cases h
      | ok included =>
        rw [hinc] at h
        simp only at h
        have hIn := includeAll_spec hV (done := []) (by omega) (fun r hr => hrV r ((o.rootsPerm _).mem_iff.1 hr))
          ⟨by simp, by simp, by simp⟩ hinc
        obtain ⟨inc', hinc'⟩ := includeAll_total (pop := o'.pop) hV (fuel := solution.length + 2) (by omega)
          (rs := o'.roots roots) (visited := []) (fun r hr => hrV r ((o'.rootsPerm _).mem_iff.1 hr)) (by
            intro r hr x hx
            have hx' : x ∈ included := by
              induction hx with
              | refl => exact hIn.start r (by simpa using (o.rootsPerm _).mem_iff.2 ((o'.rootsPerm _).mem_iff.1 hr))
              | tail _ hs ih =>
                obtain ⟨nb, h3, h4⟩ := hs
                obtain ⟨nb', h5, h6⟩ := hIn.closed _ ih
                rw [h3] at h5; cases h5
                exact h6 _ h4
            obtain ⟨nb, h1, -⟩ := hIn.closed x hx'
            exact ⟨nb, h1⟩)
        have hIn' := includeAll_spec hV (done := []) (by omega) (fun r hr => hrV r ((o'.rootsPerm _).mem_iff.1 hr))
          ⟨by simp, by simp, by simp⟩ hinc'
        have hsame := Included.mem_iff (fun x => by simp [(o.rootsPerm _).mem_iff, (o'.rootsPerm _).mem_iff]) hIn hIn'
        rw [hinc']
        simp only [← hsame, ← hI]
        by_cases ha : roots.all (fun r => decide (r ∈ included)) = true
        · rw [if_pos ha] at h
          rw [if_pos ha]
          cases h
          refine ⟨_, rfl, fun l => ?_⟩
          rw [mem_supdate, mem_supdate, hsame]
        · rw [if_neg ha] at h; cases h

/-! ### the policy -/

theorem maxByFrom_error {V : Type} [LinearOrder V] {ver : Int → Option V} {l : List Int} {x : Int} (hx : x ∈ l) (hn : ver x = none)
    (b : Int × V) : Sat.maxByFrom ver l b = .error .keyError := by
  induction l generalizing b with
  | nil => simp at hx
  | cons y l ih =>
    simp only [Sat.maxByFrom]
    cases hy : ver y with
    | none => rfl
    | some v =>
      have : x ∈ l := by
        rcases List.mem_cons.1 hx with rfl | h
        · rw [hn] at hy; cases hy
        · exact h
      simp only [ih this]
      split <;> rfl

theorem maxBy_error {V : Type} [LinearOrder V] {ver : Int → Option V} {l : List Int} {x : Int} (hx : x ∈ l) (hn : ver x = none) :
    Sat.maxBy ver l = .error .keyError := by
  cases l with
  | nil => simp at hx
  | cons y l =>
    simp only [Sat.maxBy]
    cases hy : ver y with
    | none => rfl
    | some v =>
      have : x ∈ l := by
        rcases List.mem_cons.1 hx with rfl | h
        · rw [hn] at hy; cases hy
        · exact h
      simp only [maxByFrom_error this hn, Except.map]

theorem maxBy_ok {V : Type} [LinearOrder V] {ver : Int → Option V} {l : List Int} (hne : l ≠ []) (hl : ∀ x ∈ l, (ver x).isSome) :
    ∃ p vp, Sat.maxBy ver l = .ok (some p) ∧ p ∈ l ∧ ver p = some vp ∧ ∀ q ∈ l, ∀ vq, ver q = some vq → vq ≤ vp := by
  cases l with
  | nil => exact absurd rfl hne
  | cons y l =>
    obtain ⟨v, hv⟩ := Option.isSome_iff_exists.1 (hl y (by simp))
    obtain ⟨p, vp, h1, h2, h3, h4⟩ := Sat.maxByFrom_spec ver l (fun x hx => hl x (by simp [hx])) y v hv
    exact ⟨p, vp, by simp only [Sat.maxBy, hv, h1, Except.map], h2, h3, h4⟩

/-- the greatest element does not depend on the order if no two elements have the same key -/
theorem maxBy_perm {V : Type} [LinearOrder V] {ver : Int → Option V}
    (hinj : ∀ x y v, ver x = some v → ver y = some v → x = y) {l l' : List Int} (hp : l.Perm l') :
    Sat.maxBy ver l = Sat.maxBy ver l' := by
  by_cases he : l = []
  · subst he
    rw [hp.nil_eq.symm]
  have he' : l' ≠ [] := fun e => he (by rw [e] at hp; exact hp.eq_nil)
  by_cases hall : ∀ x ∈ l, (ver x).isSome
  · obtain ⟨p, vp, h1, h2, h3, h4⟩ := maxBy_ok he hall
    obtain ⟨p', vp', h1', h2', h3', h4'⟩ := maxBy_ok he' (fun x hx => hall x (hp.mem_iff.2 hx))
    have e : vp = vp' := le_antisymm (h4' p (hp.mem_iff.1 h2) vp h3) (h4 p' (hp.mem_iff.2 h2') vp' h3')
    subst e
    rw [h1, h1', hinj p p' vp h3 h3']
  · simp only [not_forall, Option.not_isSome_iff_eq_none] at hall
    obtain ⟨x, hx, hn⟩ := hall
    rw [maxBy_error hx hn, maxBy_error (hp.mem_iff.1 hx) hn]

theorem packagePolicy_eq {V : Type} [LinearOrder V] {ver : Int → Option V}
    (hinj : ∀ x y v, ver x = some v → ver y = some v → x = y) {f g : Nat → List Int → List Int}
    (hf : ∀ n l, (f n l).Perm l) (hg : ∀ n l, (g n l).Perm l) : Sat.packagePolicy ver f = Sat.packagePolicy ver g := by
  have hb : ∀ n, Sat.bestCandidate ver (f n) = Sat.bestCandidate ver (g n) := by
    intro n
    funext ids a
    unfold Sat.bestCandidate
    exact maxBy_perm hinj ((hf n _).trans (hg n _).symm)
  have hn : Sat.nextPackage ver f = Sat.nextPackage ver g := by
    funext st a cs
    unfold Sat.nextPackage Sat.pick Sat.pickAfterRefresh
    simp only [hb]
  unfold Sat.packagePolicy
  rw [hn]

/-! ### solve -/

/-- every package of the pool has its own version -/
theorem idVersion_inj {pool : Pool N S U} {avail : List (Package N S U)} (hok : pool.OK avail)
    (hv : avail.Pairwise (fun p q => p.version ≠ q.version)) (x y : Int) (v : Version U)
    (hx : idVersion pool x = some v) (hy : idVersion pool y = some v) : x = y := by
  have key : ∀ z, idVersion pool z = some v → 0 < z ∧ ∃ h : z.natAbs - 1 < avail.length, (avail[z.natAbs - 1]).version = v := by
    intro z hz
    unfold idVersion at hz
    split at hz
    · next h0 =>
      refine ⟨h0, ?_⟩
      rw [hok.ids.get, if_neg (by omega)] at hz
      simp only [Option.map_eq_some_iff] at hz
      obtain ⟨p, h1, h2⟩ := hz
      rw [List.getElem?_eq_some_iff] at h1
      obtain ⟨h3, h4⟩ := h1
      exact ⟨h3, by rw [h4]; exact h2⟩
    · cases hz
  obtain ⟨x0, hx1, hx2⟩ := key x hx
  obtain ⟨y0, hy1, hy2⟩ := key y hy
  rw [List.pairwise_iff_getElem] at hv
  rcases Nat.lt_trichotomy (x.natAbs - 1) (y.natAbs - 1) with h | h | h
  · exact absurd (hx2.trans hy2.symm) (hv _ _ hx1 hy1 h)
  · omega
  · exact absurd (hy2.trans hx2.symm) (hv _ _ hy1 hx1 h)

theorem pairs_eq {F : Nat → Except PErr (Nat × Version U)} {l l' : List Nat} (hp : l.Perm l') (P : Nat → Package N S U → Prop)
    (hF : ∀ i ∈ l, ∃ q, P i q ∧ F i = .ok (i, q.version))
    (hinj : ∀ i ∈ l, ∀ j ∈ l, ∀ p q, P i p → P j q → p.version = q.version → i = j) :
    ((mapE F l).bind (fun v => .ok ((sortBy Prod.snd v).map (fun iv => (iv.1 : Int)))) : Except PErr (List Int)) =
    (mapE F l').bind (fun v => .ok ((sortBy Prod.snd v).map (fun iv => (iv.1 : Int)))) := by
  obtain ⟨r, hr⟩ := mapE_ok_of (f := F) (xs := l) (fun i hi => by
    obtain ⟨q, -, h⟩ := hF i hi
    exact ⟨_, h⟩)
  obtain ⟨r', hr', hp'⟩ := mapE_perm hp hr
  rw [hr, hr']
  simp only [Except.bind]
  rw [sortBy_perm_eq Prod.snd hp']
  have hm : ∀ iv ∈ r, iv.1 ∈ l ∧ ∃ q, P iv.1 q ∧ q.version = iv.2 := by
    intro iv hiv
    rw [mem_mapE hr] at hiv
    obtain ⟨i, h1, h2⟩ := hiv
    obtain ⟨q, h3, h4⟩ := hF i h1
    rw [h4] at h2
    cases h2
    exact ⟨h1, q, h3, rfl⟩
  intro a ha b hb e
  obtain ⟨a1, qa, a2, a3⟩ := hm a ha
  obtain ⟨b1, qb, b2, b3⟩ := hm b hb
  exact Prod.ext (hinj _ a1 _ b1 _ _ a2 b2 (by rw [a3, b3, e])) e

theorem preferIds_eq {pool : Pool N S U} {avail : List (Package N S U)} (hok : pool.OK avail) {f g : List Nat → List Nat}
    (hf : ∀ l, (f l).Perm l) (hg : ∀ l, (g l).Perm l) {installed : List (Package N S U)} (hv : DistinctVersions installed)
    (soft : List (Package N S U)) : preferIds pool f installed soft = preferIds pool g installed soft := by
  unfold preferIds
  cases hm : mapE pool.packageId (installed.filter (fun p => !(soft.any (fun q => p.same q)))) with
  | error e => rfl
  | ok ids =>
    show Except.bind _ _ = Except.bind _ _
    have hid : ∀ i ∈ ids, ∃ p ∈ installed, pool.packageId p = .ok i ∧ ∃ q, pool.idToPkg i = .ok q ∧ q.key = p.key := by
      intro i hi
      rw [mem_mapE hm] at hi
      obtain ⟨p, hp, h1⟩ := hi
      obtain ⟨-, -, q, h2, h3, -⟩ := hok.ids.packageId_spec h1
      exact ⟨p, (List.mem_filter.1 hp).1, h1, q, h2, h3⟩
    refine pairs_eq ((hf (fromkeys ids)).trans (hg _).symm) (fun i q => pool.idToPkg i = .ok q) ?_ ?_
    · intro i hi
      rw [(hf _).mem_iff, mem_fromkeys] at hi
      obtain ⟨p, -, -, q, h2, -⟩ := hid i hi
      refine ⟨q, h2, ?_⟩
      simp only [h2]
    · intro i hi j hj qi qj b1 b2 e
      rw [(hf _).mem_iff, mem_fromkeys] at hi hj
      obtain ⟨pa, pa1, pa2, qa', pa3, pa4⟩ := hid _ hi
      obtain ⟨pb, pb1, pb2, qb', pb3, pb4⟩ := hid _ hj
      rw [b1] at pa3; cases pa3
      rw [b2] at pb3; cases pb3
      have hk : pa.key = pb.key := by
        refine hv pa pa1 pb pb1 ?_
        rw [← (key_fields pa4).2.1, ← (key_fields pb4).2.1, e]
      rw [pool.packageId_congr hk, pb2] at pa2
      cases pa2; rfl

theorem _root_.Verif.Props.Harmless.symm {rs : List (Repository N S U)} {s : DependencySolver N S U} {o o' : Orders} (h : Harmless rs s o o') :
    Harmless rs s o' o := ⟨h.policy.imp_left Eq.symm, h.prefer.imp_left Eq.symm, h.unique⟩

section
variable {rs : List (Repository N S U)} {s : DependencySolver N S U} {o o' : Orders} (hh : Harmless rs s o o')
  {m : Option (Modifiers N)} {pool : Pool N S U}
include hh

theorem createRules_order (hb : Built rs m pool) (q : Request N U) : createRules s o pool q = createRules s o' pool q := by
  have : preferIds pool o.prefer s.installed.iter = preferIds pool o'.prefer s.installed.iter := by
    rcases hh.prefer with h | h
    · rw [h]
    · funext soft
      exact preferIds_eq hb.ok o.preferPerm o'.preferPerm h soft
  unfold createRules
  rw [this]

theorem search_order (hb : Built rs m pool) (st : Setup N S U) : search o pool st = search o' pool st := by
  have : Sat.packagePolicy (idVersion pool) o.policy = Sat.packagePolicy (idVersion pool) o'.policy := by
    rcases hh.policy with h | h
    · rw [h]
    · exact packagePolicy_eq (idVersion_inj hb.ok h) o.policyPerm o'.policyPerm
  unfold search
  simp only [this]

theorem finish_order (hb : Built rs m pool) {jobs : List (Job N U)} {st : Setup N S U} (hst : SetupSpec rs s pool jobs st)
    {a : ASet} (ha : search o pool st = .ok a) {t : Transaction N S U}
    (h : finish s o pool st.requirementIds a = .ok t) : finish s o' pool st.requirementIds a = .ok t := by
  unfold finish at h ⊢
  simp only [bind_ok] at h ⊢
  obtain ⟨ids, h4, h⟩ := h
  refine ⟨ids, h4, ?_⟩
  have hI : ∀ i, i ∈ o.installed (fromkeys ids) ↔ i ∈ o'.installed (fromkeys ids) := by
    intro i
    rw [(o.installedPerm _).mem_iff, (o'.installedPerm _).mem_iff]
  have hinst : ∀ i, i ∈ o.installed (fromkeys ids) ↔ ∃ p ∈ s.installed.iter, pool.packageId p = .ok i := by
    intro i
    rw [(o.installedPerm _).mem_iff, mem_fromkeys, mem_mapE h4]
  have hd : ∀ i ∈ o.installed (fromkeys ids), ∀ j ∈ o.installed (fromkeys ids), packageKey pool i = packageKey pool j → i = j := by
    intro i hi j hj e
    obtain ⟨p, p1, p2⟩ := (hinst i).1 hi
    obtain ⟨q, q1, q2⟩ := (hinst j).1 hj
    obtain ⟨-, -, p', p3, p4, -⟩ := hb.ok.ids.packageId_spec p2
    obtain ⟨-, -, q', q3, q4, -⟩ := hb.ok.ids.packageId_spec q2
    unfold packageKey at e
    simp only [p3, q3, Except.ok.injEq, Prod.mk.injEq] at e
    have : p.key = q.key := by
      refine hh.unique _ _ ⟨p, p1, rfl⟩ ⟨q, q1, rfl⟩ ?_
      rw [← p4, ← q4]
      exact e
    rw [pool.packageId_congr this, q2] at p2
    cases p2; rfl
  have h5 : ∃ D, (if s.usePruning = true then
        connectedPackages o pool (solutionToIds a) (supdate st.requirementIds (o.installed (fromkeys ids)))
      else .ok (solutionToIds a)) = .ok D ∧ mkTransaction pool D (o.installed (fromkeys ids)) = .ok t := by
    split at h
    · simp only [bind_ok] at h; simp [*]
    · simp only [bind_ok] at h; simpa [*] using h
  obtain ⟨D, h6, h7⟩ := h5
  have hC : Completed rs s m jobs pool st a (o.installed (fromkeys ids)) D := by
    refine ⟨hb, hst, hst.found hb ha, hinst, ?_⟩
    split
    · next hu =>
      rw [if_pos hu] at h6
      obtain ⟨name, included, hp⟩ := connectedPackages_spec h6
      exact ⟨_, name, included, fun i => by rw [mem_supdate], hp⟩
    · next hu =>
      rw [if_neg hu] at h6
      simp only [Except.ok.injEq] at h6
      exact h6.symm
  by_cases hu : s.usePruning = true
  · rw [if_pos hu] at h6 ⊢
    obtain ⟨D', h8, h9⟩ := connectedPackages_sets (o' := o')
      (rootIds' := supdate st.requirementIds (o'.installed (fromkeys ids)))
      (fun i => by rw [mem_supdate, mem_supdate, hI]) h6
    simp only [bind_ok]
    exact ⟨D', h8, mkTransaction_sets hb.ok hC.decisions h9 hI hd h7⟩
  · rw [if_neg hu] at h6 ⊢
    simp only [bind_ok]
    exact ⟨D, h6, mkTransaction_sets hb.ok hC.decisions (fun _ => Iff.rfl) hI hd h7⟩

theorem solve_order (hs : SolverFor rs s) (q : Request N U) {t : Transaction N S U} (h : s.solve o q = .ok t) :
    s.solve o' q = .ok t := by
  have hb := hs.solvePool (convertUpgrade q s.remote s.installed)
  unfold DependencySolver.solve at h ⊢
  simp only [bind_ok, liftP_ok, liftS_ok] at h ⊢
  obtain ⟨st, h1, a, h2, h3⟩ := h
  rw [← createRules_order hh hb]
  refine ⟨st, h1, a, ?_, finish_order hh hb (createRules_spec hb hs h1) h2 h3⟩
  rw [← search_order hh hb]
  exact h2

theorem solve_order_sat (hs : SolverFor rs s) (q : Request N U) {e : Sat.Err} (h : s.solve o q = .error (.sat e)) :
    s.solve o' q = .error (.sat e) := by
  have hb := hs.solvePool (convertUpgrade q s.remote s.installed)
  unfold DependencySolver.solve at h ⊢
  simp only [bind, Except.bind] at h ⊢
  rw [← createRules_order hh hb]
  cases hc : createRules s o (s.solvePool (convertUpgrade q s.remote s.installed)) (convertUpgrade q s.remote s.installed) with
  | error e => simp only [hc, liftP] at h; cases h
  | ok st =>
    simp only [hc, liftP] at h ⊢
    rw [← search_order hh hb]
    cases ha : search o (s.solvePool (convertUpgrade q s.remote s.installed)) st with
    | error e => simp only [ha, liftS] at h ⊢; exact h
    | ok a =>
      simp only [ha, liftS] at h
      cases hf : finish s o (s.solvePool (convertUpgrade q s.remote s.installed)) st.requirementIds a <;>
        rw [hf] at h <;> cases h

end

end Verif.Solve
