import Verif.Solve.SetupLemmas
/-
What `_connected_packages` keeps of a solution.
-/
set_option linter.unusedSectionVars false
namespace Verif.Solve
open Verif Verif.Pkg Verif.Graph Verif.Rules Verif.Props Verif.Sat
open Relation

variable {N S U : Type} [LinearOrder N] [DecidableEq S] [LinearOrder U] [Syntax S U]

theorem mem_provides_names (p : Package N S U) (n : N) : n ∈ p.provides.map Prod.fst ↔ Provides p n := by
  unfold Package.provides Provides
  simp only [List.map_cons, List.mem_cons, List.mem_map]

/-- what the loop over the roots returns: a set closed under `f` that contains the roots and nothing unreachable -/
structure Included (f : Int → Except PErr (List Int)) (roots included : List Int) : Prop where
  start : ∀ r ∈ roots, r ∈ included
  closed : ∀ x ∈ included, ∃ nb, f x = .ok nb ∧ ∀ y ∈ nb, y ∈ included
  reach : ∀ x ∈ included, ∃ r ∈ roots, ReflTransGen (Step f) r x

theorem includeAll_spec {pop : PopOrder Int} {f : Int → Except PErr (List Int)} {V : List Int}
    (hV : ∀ x ∈ V, ∀ y, Step f x y → y ∈ V) {fuel : Nat} (hf : V.length + 1 < fuel) {rs done visited l : List Int}
    (hr : ∀ r ∈ rs, r ∈ V) (hv : Included f done visited) (h : includeAll pop f fuel rs visited = .ok l) :
    Included f (done ++ rs) l := by
  induction rs generalizing done visited with
  | nil => simp only [includeAll, Except.ok.injEq] at h; subst h; simpa using hv
  | cons r rs ih =>
    simp only [includeAll] at h
    have hreach : ∀ x, ReflTransGen (Step f) r x → x ∈ V := by
      intro x hx
      induction hx with
      | refl => exact hr r (by simp)
      | tail _ hs ih => exact hV _ ih _ hs
    rcases connectedNodes_spec pop f (V0 := visited) hreach hf with ⟨l', h1, h2⟩ | ⟨x, e, h1, -, -⟩
    · rw [h1] at h
      simp only at h
      have : Included f (done ++ [r]) (supdate l' visited) := by
        refine ⟨?_, ?_, ?_⟩
        · intro x hx
          rw [mem_supdate]
          rcases List.mem_append.1 hx with hx | hx
          · exact Or.inr (hv.start x hx)
          · rw [List.mem_singleton] at hx; subst hx; exact Or.inl h2.start
        · intro x hx
          rw [mem_supdate] at hx
          by_cases hxv : x ∈ visited
          · obtain ⟨nb, k1, k2⟩ := hv.closed x hxv
            exact ⟨nb, k1, fun y hy => by rw [mem_supdate]; exact Or.inr (k2 y hy)⟩
          · obtain ⟨nb, k1, k2⟩ := h2.proc x (hx.resolve_right hxv) (Or.inl hxv)
            exact ⟨nb, k1, fun y hy => by rw [mem_supdate]; left; simpa using k2 y hy⟩
        · intro x hx
          rw [mem_supdate] at hx
          have : x ∈ visited ∨ ReflTransGen (Step f) r x := by
            rcases hx with hx | hx
            · exact h2.vreach x hx
            · exact Or.inl hx
          rcases this with hx | hx
          · obtain ⟨r', k1, k2⟩ := hv.reach x hx
            exact ⟨r', by simp [k1], k2⟩
          · exact ⟨r, by simp, hx⟩
      have := ih (fun x hx => hr x (by simp [hx])) this h
      simpa using this
    · rw [h1] at h; simp at h

/-- what `_connected_packages` does, in terms of the solution, the root ids and a map from names to the selected packages
that provide them -/
structure Pruned (pool : Pool N S U) (solution : List Int) (rootIds : List Nat) (D : List Int)
    (name : N → Option Int) (included : List Int) : Prop where
  /-- a name is mapped to a selected package that provides it -/
  nameSound : ∀ n l, name n = some l → l ∈ solution ∧ 0 < l ∧ ∃ p, pool.idToPkg l.natAbs = .ok p ∧ Provides p n
  /-- every name that is provided is mapped to something -/
  nameComplete : ∀ l ∈ solution, 0 < l → ∀ p, pool.idToPkg l.natAbs = .ok p → ∀ n, Provides p n → ∃ l', name n = some l'
  /-- the names that the roots provide -/
  roots : ∀ i ∈ rootIds, ∀ p, pool.idToPkg i = .ok p → ∀ n, Provides p n → ∀ l, name n = some l → l ∈ included
  /-- the dependencies of what is included -/
  closed : ∀ l ∈ included, 0 < l ∧ ∃ p, pool.idToPkg l.natAbs = .ok p ∧
    ∀ t ∈ p.installRequires, ∃ l', name t.1 = some l' ∧ l' ∈ included
  /-- nothing else is included -/
  least : ∀ P : Int → Prop,
    (∀ i ∈ rootIds, ∀ p, pool.idToPkg i = .ok p → ∀ n, Provides p n → ∀ l, name n = some l → P l) →
    (∀ l, P l → ∀ p, pool.idToPkg l.natAbs = .ok p → ∀ t ∈ p.installRequires, ∀ l', name t.1 = some l' → P l') →
    ∀ l ∈ included, P l
  decided : ∀ l, l ∈ D ↔ l ∈ included ∨ (l ∈ solution ∧ l.natAbs ∈ rootIds)

theorem nameItems_iff {pool : Pool N S U} {solution : List Int} {items : List (List (N × Int))}
    (hit : mapE (nameItems pool) solution = .ok items) (n : N) (l : Int) :
    (n, l) ∈ items.flatten ↔ l ∈ solution ∧ 0 < l ∧ ∃ p, pool.idToPkg l.natAbs = .ok p ∧ Provides p n := by
  rw [List.mem_flatten]
  constructor
  · rintro ⟨its, h1, h2⟩
    obtain ⟨x, hx, h3⟩ := (mem_mapE hit its).1 h1
    unfold nameItems getNames at h3
    cases hg : pool.idToPkg x.natAbs with
    | error e => simp only [hg] at h3; simp at h3
    | ok p =>
      simp only [hg, Except.ok.injEq] at h3
      subst h3
      split at h2
      · next h0 =>
        obtain ⟨m, hm, e⟩ := List.mem_map.1 h2
        simp only [Prod.mk.injEq] at e
        obtain ⟨rfl, rfl⟩ := e
        exact ⟨hx, h0, p, hg, (mem_provides_names p m).1 hm⟩
      · simp at h2
  · rintro ⟨h1, h0, p, hg, hp⟩
    obtain ⟨its, h2⟩ : ∃ its, nameItems pool l = .ok its ∧ (n, l) ∈ its := by
      unfold nameItems getNames
      simp only [hg, if_pos h0]
      exact ⟨_, rfl, List.mem_map.2 ⟨n, (mem_provides_names p n).2 hp, rfl⟩⟩
    exact ⟨its, (mem_mapE hit its).2 ⟨l, h1, h2.1⟩, h2.2⟩

/-- a name is mapped to a selected package that provides it -/
theorem nameToId_sound {pool : Pool N S U} {solution : List Int} {items : List (List (N × Int))}
    (hit : mapE (nameItems pool) solution = .ok items) {n : N} {l : Int} (hg : dget (dictOf items.flatten) n = some l) :
    l ∈ solution ∧ 0 < l ∧ ∃ p, pool.idToPkg l.natAbs = .ok p ∧ Provides p n :=
  (nameItems_iff hit n l).1 (dget_dictOf_some hg)

/-- every name that is provided is mapped to something -/
theorem nameToId_complete {pool : Pool N S U} {solution : List Int} {items : List (List (N × Int))}
    (hit : mapE (nameItems pool) solution = .ok items) {l : Int} (h1 : l ∈ solution) (h2 : 0 < l) {p : Package N S U}
    (h3 : pool.idToPkg l.natAbs = .ok p) {n : N} (h4 : Provides p n) : ∃ l', dget (dictOf items.flatten) n = some l' := by
  have h5 := (nameItems_iff hit n l).2 ⟨h1, h2, p, h3, h4⟩
  have h6 : n ∈ dkeys (dictOf items.flatten) := by rw [mem_dkeys_dictOf]; exact ⟨l, h5⟩
  rwa [mem_dkeys_iff] at h6

theorem rootNames_iff {pool : Pool N S U} {rootIds : List Nat} {rootNames : List (List N)}
    (hrn : mapE (fun (i : Nat) => getNames pool (i : Int)) rootIds = .ok rootNames) (n : N) :
    n ∈ rootNames.flatten ↔ ∃ i ∈ rootIds, ∃ p, pool.idToPkg i = .ok p ∧ Provides p n := by
  rw [List.mem_flatten]
  constructor
  · rintro ⟨ns, h1, h2⟩
    obtain ⟨i, hi, h3⟩ := (mem_mapE hrn ns).1 h1
    unfold getNames at h3
    rw [Int.natAbs_natCast] at h3
    cases hg : pool.idToPkg i with
    | error e => simp only [hg] at h3; simp at h3
    | ok p =>
      simp only [hg, Except.ok.injEq] at h3
      subst h3
      exact ⟨i, hi, p, hg, (mem_provides_names p n).1 h2⟩
  · rintro ⟨i, hi, p, hg, hp⟩
    refine ⟨p.provides.map Prod.fst, (mem_mapE hrn _).2 ⟨i, hi, ?_⟩, (mem_provides_names p n).2 hp⟩
    unfold getNames
    rw [Int.natAbs_natCast]
    simp only [hg]

theorem rootSet_iff {pool : Pool N S U} {items : List (List (N × Int))}
    {rootIds : List Nat} {rootNames : List (List N)}
    (hrn : mapE (fun (i : Nat) => getNames pool (i : Int)) rootIds = .ok rootNames) (l : Int) :
    l ∈ fromkeys (((dictOf items.flatten).filter (fun nl => decide (nl.1 ∈ rootNames.flatten))).map Prod.snd) ↔
      ∃ n, dget (dictOf items.flatten) n = some l ∧ ∃ i ∈ rootIds, ∃ p, pool.idToPkg i = .ok p ∧ Provides p n := by
  rw [mem_fromkeys, List.mem_map]
  constructor
  · rintro ⟨⟨n, l'⟩, h1, rfl⟩
    rw [List.mem_filter, decide_eq_true_eq, rootNames_iff hrn] at h1
    exact ⟨n, dget_of_mem (nodup_dkeys_dictOf _) h1.1, h1.2⟩
  · rintro ⟨n, h1, h2⟩
    refine ⟨(n, l), ?_, rfl⟩
    rw [List.mem_filter, decide_eq_true_eq, rootNames_iff hrn]
    exact ⟨mem_of_dget h1, h2⟩

theorem depNeighbors_iff {nameToId : Dict N Int} (t : CTuple N S) (y : Int) :
    depNeighbors nameToId t = .ok y ↔ dget nameToId t.1 = some y := by
  unfold depNeighbors
  split <;> simp [*]

theorem neighborFunc_ok {pool : Pool N S U} {nameToId : Dict N Int} {l : Int} {nb : List Int}
    (hn : neighborFunc pool nameToId l = .ok nb) : 0 < l ∧ ∃ p, pool.idToPkg l.natAbs = .ok p ∧
      (∀ t ∈ p.installRequires, ∃ l', dget nameToId t.1 = some l' ∧ l' ∈ nb) ∧
      ∀ y ∈ nb, ∃ t ∈ p.installRequires, dget nameToId t.1 = some y := by
  unfold neighborFunc at hn
  split at hn
  · simp at hn
  · next p hp =>
    split at hp
    rotate_left
    · simp at hp
    next h0 =>
    refine ⟨h0, p, hp, ?_⟩
    cases hd : mapE (depNeighbors nameToId) p.installRequires with
    | error e => simp only [hd] at hn; simp at hn
    | ok ls =>
      simp only [hd, Except.ok.injEq] at hn
      subst hn
      refine ⟨?_, ?_⟩
      · intro t ht
        obtain ⟨y, -, hy⟩ := mapE_all hd ht
        exact ⟨y, (depNeighbors_iff t y).1 hy, by rw [mem_fromkeys]; exact (mem_mapE hd y).2 ⟨t, ht, hy⟩⟩
      · intro y hy
        rw [mem_fromkeys, mem_mapE hd] at hy
        obtain ⟨t, ht, hty⟩ := hy
        exact ⟨t, ht, (depNeighbors_iff t y).1 hty⟩

theorem connectedPackages_spec {o : Orders} {pool : Pool N S U} {solution : List Int} {rootIds : List Nat} {D : List Int}
    (h : connectedPackages o pool solution rootIds = .ok D) :
    ∃ name included, Pruned pool solution rootIds D name included := by
  unfold connectedPackages at h
  cases hrn : mapE (fun (i : Nat) => getNames pool (i : Int)) rootIds with
  | error e => simp only [hrn] at h; simp at h
  | ok rootNames =>
  simp only [hrn] at h
  cases hit : mapE (nameItems pool) solution with
  | error e => simp only [hit] at h; simp at h
  | ok items =>
  simp only [hit] at h
  generalize hN : dictOf items.flatten = nameToId at h
  generalize hR : fromkeys ((nameToId.filter (fun nl => decide (nl.1 ∈ rootNames.flatten))).map Prod.snd) = roots at h
  cases hinc : includeAll o.pop (neighborFunc pool nameToId) (solution.length + 2) (o.roots roots) [] with
  | error e => simp only [hinc] at h; simp at h
  | ok included =>
  simp only [hinc] at h
  split at h
  rotate_left
  · simp at h
  next hall =>
  simp only [Except.ok.injEq] at h
  have hsound : ∀ n l, dget nameToId n = some l →
      l ∈ solution ∧ 0 < l ∧ ∃ p, pool.idToPkg l.natAbs = .ok p ∧ Provides p n := by
    intro n l hg
    rw [← hN] at hg
    exact nameToId_sound hit hg
  have hcomp : ∀ l ∈ solution, 0 < l → ∀ p, pool.idToPkg l.natAbs = .ok p → ∀ n, Provides p n →
      ∃ l', dget nameToId n = some l' := by
    intro l h1 h2 p h3 n h4
    rw [← hN]
    exact nameToId_complete hit h1 h2 h3 h4
  have hroots : ∀ l, l ∈ roots ↔ ∃ n, dget nameToId n = some l ∧ ∃ i ∈ rootIds, ∃ p, pool.idToPkg i = .ok p ∧ Provides p n := by
    intro l
    rw [← hR, ← hN]
    exact rootSet_iff hrn l
  have hneigh := fun l nb => @neighborFunc_ok _ _ _ _ _ _ _ pool nameToId l nb
  have hInc : Included (neighborFunc pool nameToId) (o.roots roots) included := by
    have := includeAll_spec (V := solution) (done := []) (visited := []) ?_ (by omega) ?_ ?_ hinc
    · simpa using this
    · rintro x - y ⟨nb, h1, h2⟩
      obtain ⟨-, p, -, -, h3⟩ := hneigh x nb h1
      obtain ⟨t, -, h4⟩ := h3 y h2
      exact (hsound _ _ h4).1
    · intro r hr
      rw [(o.rootsPerm roots).mem_iff, hroots] at hr
      obtain ⟨n, h1, -⟩ := hr
      exact (hsound _ _ h1).1
    · exact ⟨by simp, by simp, by simp⟩
  refine ⟨dget nameToId, included, hsound, hcomp, ?_, ?_, ?_, ?_⟩
  · intro i hi p hp n hn l hl
    exact hInc.start l (by rw [(o.rootsPerm roots).mem_iff, hroots]; exact ⟨n, hl, i, hi, p, hp, hn⟩)
  · intro l hl
    obtain ⟨nb, h1, h2⟩ := hInc.closed l hl
    obtain ⟨h0, p, hp, h3, -⟩ := hneigh l nb h1
    refine ⟨h0, p, hp, fun t ht => ?_⟩
    obtain ⟨l', h4, h5⟩ := h3 t ht
    exact ⟨l', h4, h2 l' h5⟩
  · intro P h1 h2 l hl
    obtain ⟨r, hr, hreach⟩ := hInc.reach l hl
    rw [(o.rootsPerm roots).mem_iff, hroots] at hr
    obtain ⟨n, h3, i, hi, p, hp, hn⟩ := hr
    have hPr := h1 i hi p hp n hn r h3
    clear hl
    induction hreach with
    | refl => exact hPr
    | @tail x y _ hs ih =>
      obtain ⟨nb, k1, k2⟩ := hs
      obtain ⟨-, q, hq, -, k3⟩ := hneigh x nb k1
      obtain ⟨t, ht, k4⟩ := k3 y k2
      exact h2 x ih q hq t ht y k4
  · intro l
    rw [← h, mem_supdate, List.mem_filter, decide_eq_true_eq, or_comm]

end Verif.Solve
