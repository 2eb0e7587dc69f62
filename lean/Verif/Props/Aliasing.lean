import Verif.Solve.ObjectsLemmas
import Verif.Solve.Example
/-
Properties C116-C117: modifiers, requests, pool and solver are objects that refer to one another.
-/
namespace Verif.Props
open Verif Verif.Pkg Verif.Solve

section
variable {N S U : Type} [LinearOrder N] [DecidableEq S] [LinearOrder U] [Syntax S U]

/-- The objects after any calls of a program that starts with a solver -/
def Reached (s : DependencySolver N S U) (w : World N S U) : Prop := ∃ hist : List (Call N S U), w = World.run hist (World.start s)

theorem Reached.wf {s : DependencySolver N S U} {w : World N S U} (h : Reached s w) : w.WF := by
  obtain ⟨hist, rfl⟩ := h
  exact World.WF.run hist (World.start_wf s)

theorem solver_step (w : World N S U) (c : Call N S U) : (w.step c).1.solver = w.solver := by
  have onReq : ∀ q (f : ModsRefs → World N S U), (∀ r, (f r).solver = w.solver) → (w.onRequest q f).1.solver = w.solver := by
    intro q f hf
    unfold World.onRequest
    split
    · rfl
    · split
      · rfl
      · exact hf _
  cases c with
  | newSet a => rfl
  | addToSet r x => rfl
  | newModifiers a b c => simp only [World.step]; split <;> rfl
  | newRequest k =>
    cases k with
    | none => rfl
    | some k => simp only [World.step]; split <;> rfl
  | allowNewer q x => exact onReq q _ (fun _ => rfl)
  | allowAny q x => exact onReq q _ (fun _ => rfl)
  | allowOlder q x => exact onReq q _ (fun _ => rfl)
  | update k k' => simp only [World.step]; split <;> rfl
  | remove k a =>
    simp only [World.step]
    split
    · rfl
    · split <;> rfl
  | addJob q r k =>
    simp only [World.step]
    split
    · rfl
    · split <;> rfl
  | setPoolModifiers k =>
    cases k with
    | none => rfl
    | some k => simp only [World.step]; split <;> rfl
  | solve o q => simp only [World.step]; split <;> rfl
  | solveWithHint o o' q => simp only [World.step]; split <;> rfl
  | whatProvides r b => rfl

theorem solver_run (cs : List (Call N S U)) : ∀ w : World N S U, (World.run cs w).solver = w.solver := by
  induction cs with
  | nil => exact fun _ => rfl
  | cons c cs ih => intro w; rw [World.run, ih, solver_step]

theorem length_step (w : World N S U) (c : Call N S U) {m : Nat} (h : m < w.mods.length) : m < (w.step c).1.mods.length :=
  lt_of_lt_of_le h (World.mods_step w c).length_le

/-! ### C116 -/

/-- the changes that the calls ask of the modifiers object `m`, one after the other, with the names that the arguments had when
the call was made -/
def asked (m : Nat) : List (Call N S U) → World N S U → List (ModOp N)
  | [], _ => []
  | c :: cs, w => (w.asks m c).toList ++ asked m cs (w.step c).1

/-- C116: whatever objects share, a modifiers object holds at any time what it held at an earlier time, changed by the calls that
were aimed at it since, in their order: a call `request.allow_newer(x)` of a request that refers to it, `m.update(other)` with what
`other` held then (also when `other` is `m`), `m.remove(packages)` with the names that `packages` had then (also when `packages` is
one of the sets of `m`), or `add` on one of its sets. No other call changes it. -/
theorem C116_history {s : DependencySolver N S U} {w : World N S U} (h : Reached s w) {m : Nat} {v : Modifiers N}
    (hv : w.value m = some v) (cs : List (Call N S U)) :
    (World.run cs w).value m = some ((asked m cs w).foldl ModOp.apply v) := by
  have hw := h.wf
  clear h
  induction cs generalizing w v with
  | nil => exact hv
  | cons c cs ih =>
    have hm : m < w.mods.length := by
      rcases Nat.lt_or_ge m w.mods.length with h | h
      · exact h
      · rw [World.value, List.getElem?_eq_none h] at hv; exact absurd hv (by simp)
    have e := World.value_step hw hm c
    rw [hv] at e
    rw [World.run, asked, List.foldl_append]
    cases ha : w.asks m c with
    | none =>
      rw [ha] at e
      exact ih e (hw.step c)
    | some o =>
      rw [ha] at e
      exact ih e (hw.step c)

/-- C116: a call that is not aimed at `m` leaves it as it is, whatever `m` was made from and whoever refers to it. -/
theorem C116_others_unchanged {s : DependencySolver N S U} {w : World N S U} (h : Reached s w) {m : Nat}
    (hm : m < w.mods.length) (c : Call N S U) (hc : w.asks m c = none) : (w.step c).1.value m = w.value m := by
  rw [World.value_step h.wf hm, hc]; rfl

/-- C116: `m.update(other)` adds to the three sets of `m` what the sets of `other` hold, and changes no other modifiers; when
`other` is `m` nothing changes. -/
theorem C116_update {s : DependencySolver N S U} {w : World N S U} (h : Reached s w) {m k : Nat} {v v' : Modifiers N}
    (hm : w.value m = some v) (hk : w.value k = some v') :
    (∃ u, (w.step (.update m k)).1.value m = some u ∧ (∀ x, x ∈ u.allowNewer ↔ x ∈ v.allowNewer ∨ x ∈ v'.allowNewer) ∧
      (∀ x, x ∈ u.allowAny ↔ x ∈ v.allowAny ∨ x ∈ v'.allowAny) ∧
      (∀ x, x ∈ u.allowOlder ↔ x ∈ v.allowOlder ∨ x ∈ v'.allowOlder)) ∧
    ∀ j, j < w.mods.length → j ≠ m → (w.step (.update m k)).1.value j = w.value j := by
  have hlt : m < w.mods.length := by
    rcases Nat.lt_or_ge m w.mods.length with h | h
    · exact h
    · rw [World.value, List.getElem?_eq_none h] at hm; exact absurd hm (by simp)
  refine ⟨⟨v.update v', ?_, ?_⟩, ?_⟩
  · rw [World.value_step h.wf hlt, World.asks, hk, hm]; simp [applyTo, ModOp.apply]
  · simp [Modifiers.update, or_comm]
  · intro j hj hne
    exact C116_others_unchanged h hj _ (by simp [World.asks, Ne.symm hne])

/-- C116: `m.remove(s)` takes away from all three sets of `m` every name that `s` held when the call was made, also when `s` is
one of the three sets (which is then empty), and nothing else; no other modifiers change, and `m.remove("name")` raises TypeError and
changes nothing. -/
theorem C116_remove {s : DependencySolver N S U} {w : World N S U} (h : Reached s w) {m : Nat} {v : Modifiers N}
    (hm : w.value m = some v) (r : Nat) (n : N) :
    (∃ u, (w.step (.remove m (.set r))).1.value m = some u ∧
      (∀ x, x ∈ u.allowNewer ↔ x ∈ v.allowNewer ∧ x ∉ w.setAt r) ∧
      (∀ x, x ∈ u.allowAny ↔ x ∈ v.allowAny ∧ x ∉ w.setAt r) ∧
      (∀ x, x ∈ u.allowOlder ↔ x ∈ v.allowOlder ∧ x ∉ w.setAt r)) ∧
    (∀ j, j < w.mods.length → j ≠ m → (w.step (.remove m (.set r))).1.value j = w.value j) ∧
    w.step (.remove m (.str n)) = (w, .raised .typeError) := by
  have hlt : m < w.mods.length := by
    rcases Nat.lt_or_ge m w.mods.length with h | h
    · exact h
    · rw [World.value, List.getElem?_eq_none h] at hm; exact absurd hm (by simp)
  refine ⟨⟨v.remove (w.setAt r), ?_, ?_⟩, ?_, ?_⟩
  · rw [World.value_step h.wf hlt, World.asks, hm]; simp [applyTo, ModOp.apply]
  · simp [Modifiers.remove, Modifiers.diffUpdate]
  · intro j hj hne
    exact C116_others_unchanged h hj _ (by simp [World.asks, Ne.symm hne])
  · obtain ⟨refs, e⟩ := World.getElem?_lt hlt
    simp [World.step, e]

theorem value_newModifiers_self {w : World N S U} {a b c : Names N} (ha : w.has a) (hb : w.has b) (hc : w.has c) :
    (w.newModifiers a b c).1.value w.mods.length =
      some ⟨fromkeys (w.contents a), fromkeys (w.contents b), fromkeys (w.contents c)⟩ := by
  have keep : ∀ (x : Names N), w.has x → ∀ l, ({ w with sets := w.sets ++ l } : World N S U).contents x = w.contents x := by
    intro x hx l
    cases x with
    | str n => rfl
    | list l => rfl
    | set r => exact World.setAt_append w l hx
  have e1 : (w.asSet a).1.contents b = w.contents b := keep b hb _
  have e2 : ((w.asSet a).1.asSet b).1.contents c = w.contents c := by
    have := keep c hc ([fromkeys (w.contents a)] ++ [fromkeys ((w.asSet a).1.contents b)])
    rw [← List.append_assoc] at this
    exact this
  have key : (w.newModifiers a b c).1 = { w with
      sets := w.sets ++ [fromkeys (w.contents a), fromkeys (w.contents b), fromkeys (w.contents c)]
      mods := w.mods ++ [⟨w.sets.length, w.sets.length + 1, w.sets.length + 2⟩] } := by
    rw [← e1, ← e2]
    simp only [World.newModifiers, World.asSet, List.append_assoc, List.length_append, List.length_cons, List.length_nil,
      List.cons_append, List.nil_append]
  rw [key]
  simp [World.value, World.setAt, List.getD_eq_getElem?_getD]

/-- C116: `ConstraintModifiers(a, b, c)` makes an object of its own: its sets hold the names of the arguments, a string being one
name; the sets that were handed over, and all modifiers that exist, are as before; and a later `add` on a set that was handed over
does not change it. -/
theorem C116_new_modifiers {s : DependencySolver N S U} {w : World N S U} (h : Reached s w) {a b c : Names N}
    (ha : w.has a) (hb : w.has b) (hc : w.has c) :
    let w' := (w.step (.newModifiers a b c)).1
    (∃ u, w'.value w.mods.length = some u ∧ (∀ x, x ∈ u.allowNewer ↔ x ∈ w.contents a) ∧
      (∀ x, x ∈ u.allowAny ↔ x ∈ w.contents b) ∧ (∀ x, x ∈ u.allowOlder ↔ x ∈ w.contents c) ∧
      ∀ r x, r < w.sets.length → (w'.step (.addToSet r x)).1.value w.mods.length = some u) ∧
    (∀ r, r < w.sets.length → w'.setAt r = w.setAt r) ∧ ∀ j, j < w.mods.length → w'.value j = w.value j := by
  have e : (w.step (.newModifiers a b c)).1 = (w.newModifiers a b c).1 := by simp [World.step, ha, hb, hc]
  have hval := value_newModifiers_self ha hb hc
  obtain ⟨x, y, z, e2, -⟩ := w.newModifiers_eq a b c
  simp only [e]
  refine ⟨⟨_, hval, by simp, by simp, by simp, ?_⟩, ?_, ?_⟩
  · intro r y hr
    have hw' := h.wf.newModifiers a b c
    have hlt : w.mods.length < (w.newModifiers a b c).1.mods.length := by rw [e2]; simp
    have hask : (w.newModifiers a b c).1.asks w.mods.length (.addToSet r y : Call N S U) = none := by
      rw [e2]
      simp only [World.asks, List.getElem?_append_right (Nat.le_refl _), Nat.sub_self, List.getElem?_cons_zero]
      have h1 : r ≠ w.sets.length := by omega
      have h2 : r ≠ w.sets.length + 1 := by omega
      have h3 : r ≠ w.sets.length + 2 := by omega
      simp [h1, h2, h3]
    rw [World.value_step hw' hlt, hask]
    exact hval
  · intro r hr
    rw [e2]
    simp [World.setAt, List.getD_eq_getElem?_getD, List.getElem?_append_left hr]
  · intro j hj
    exact World.value_newModifiers h.wf hj a b c

/-- C116: `Request()` has modifiers of its own, without names, that no other request and no pool refers to. -/
theorem C116_new_request {s : DependencySolver N S U} {w : World N S U} (h : Reached s w) :
    let w' := (w.step (.newRequest none)).1
    ∃ o, w'.requests[w.requests.length]? = some o ∧ o.jobs = [] ∧ w'.value o.modifiers = some Modifiers.empty ∧
      (∀ q o', q ≠ w.requests.length → w'.requests[q]? = some o' → o'.modifiers ≠ o.modifiers) ∧
      w'.poolMods ≠ some o.modifiers := by
  have hval := value_newModifiers_self (w := w) (a := .list []) (b := .list []) (c := .list []) trivial trivial trivial
  obtain ⟨x, y, z, e2, e3⟩ := w.newModifiers_eq (.list []) (.list []) (.list [])
  refine ⟨⟨w.mods.length, []⟩, ?_, rfl, ?_, ?_, ?_⟩
  · simp only [World.step, World.newRequest, e2, e3, List.getElem?_append_right (Nat.le_refl _), Nat.sub_self,
      List.getElem?_cons_zero]
  · exact hval
  · intro q o' hq ho
    simp only [World.step, World.newRequest, e2, e3] at ho
    obtain ⟨hlt, -⟩ := List.getElem?_eq_some_iff.1 ho
    simp only [List.length_append, List.length_cons, List.length_nil] at hlt
    rw [List.getElem?_append_left (by omega)] at ho
    have := h.wf.reqs o' (List.mem_of_getElem? ho)
    show o'.modifiers ≠ w.mods.length
    omega
  · simp only [World.step, World.newRequest, e2]
    intro hp
    have := h.wf.pool _ hp
    omega

/-- C116: `solve` and `solve_with_hint` work with what the modifiers and the jobs of the request are when they are called - the
answer is that of the solver with which the program began, whatever was done with other objects before - and change no set, no
modifiers, and no request. -/
theorem C116_solve {s : DependencySolver N S U} {w : World N S U} (h : Reached s w) {q : Nat} {v : Request N U}
    (hq : w.request q = some v) (o : Orders) (o' : List (Job N U) → Orders) :
    (w.step (.solve o q)).2 = .solved (s.solve o v) ∧
    (w.step (.solveWithHint o o' q)).2 = .solved (s.solveWithHint o o' v) ∧
    ∀ w' ∈ [(w.step (.solve o q)).1, (w.step (.solveWithHint o o' q)).1],
      w'.sets = w.sets ∧ w'.mods = w.mods ∧ w'.requests = w.requests ∧ w'.solver = w.solver := by
  have hs : w.solver = s := by obtain ⟨hist, rfl⟩ := h; rw [solver_run]; rfl
  cases hr : w.requests[q]? with
  | none => rw [World.request, hr] at hq; exact absurd hq (by simp)
  | some obj =>
    refine ⟨?_, ?_, ?_⟩
    · simp only [World.step, hr, hq]
      rw [(C63_modifiers_irrelevant (s := w.solverNow) (t := s) ?_ o o' v).1]
      · rfl
      · rw [← hs]; exact ⟨rfl, rfl, rfl, rfl, rfl, rfl, rfl, rfl⟩
    · simp only [World.step, hr, hq]
      rw [(C63_modifiers_irrelevant (s := w.solverNow) (t := s) ?_ o o' v).2, solveWithHintEff_eq]
      · rw [← hs]; exact ⟨rfl, rfl, rfl, rfl, rfl, rfl, rfl, rfl⟩
    · intro w' hw'
      simp only [World.step, hr, hq, List.mem_cons, List.not_mem_nil, or_false, or_self] at hw'
      subst hw'
      exact ⟨rfl, rfl, rfl, rfl⟩

/-- C116: the store agrees with the sessions of C63: after `solve` the pool is as `Session` has it, with the values that the
modifiers have at that time. -/
theorem C116_session {s : DependencySolver N S U} {w : World N S U} (_h : Reached s w) {q : Nat} {v : Request N U}
    (hq : w.request q = some v) (o : Orders) (o' : List (Job N U) → Orders) :
    (w.step (.solve o q)).1.solverNow = (w.solverNow.solveEff o v).2 ∧
    (w.step (.solveWithHint o o' q)).1.solverNow = (w.solverNow.solveWithHintEff o o' v).2 := by
  rw [solveEff_eq, solveWithHintEff_eq]
  cases hr : w.requests[q]? with
  | none => rw [World.request, hr] at hq; exact absurd hq (by simp)
  | some obj =>
    have hv : w.value obj.modifiers = some v.modifiers := by
      rw [World.request, hr] at hq
      simp only [Option.map_eq_some_iff] at hq
      obtain ⟨m, hm, rfl⟩ := hq
      exact hm
    have key : (w.setPool obj).solverNow = { w.solverNow with
        pool := { w.solverNow.pool with modifiers := activeModifiers v.modifiers } } := by
      simp only [World.solverNow, World.setPool, hv, activeModifiers]
      split
      · rfl
      · have : ∀ (w' : World N S U), w'.sets = w.sets → w'.mods = w.mods → w'.value obj.modifiers = some v.modifiers := by
          intro w' h1 h2
          rw [← hv]
          simp [World.value, World.setAt, h1, h2]
        simp [Option.bind, this]
    simp only [World.step, hr, hq, key, and_self]
    rfl

/-! ### C117 -/

/-- a call that changes the pool: it sets the modifiers, or solves a request -/
def Call.setsPool : Call N S U → Bool
  | .setPoolModifiers _ => true
  | .solve _ _ => true
  | .solveWithHint _ _ _ => true
  | _ => false

theorem poolMods_step (w : World N S U) (c : Call N S U) (hc : Call.setsPool c = false) : (w.step c).1.poolMods = w.poolMods := by
  have onReq : ∀ q (f : ModsRefs → World N S U), (∀ r, (f r).poolMods = w.poolMods) → (w.onRequest q f).1.poolMods = w.poolMods := by
    intro q f hf
    unfold World.onRequest
    split
    · rfl
    · split
      · rfl
      · exact hf _
  cases c with
  | newSet a => rfl
  | addToSet r x => rfl
  | newModifiers a b c => simp only [World.step]; split <;> rfl
  | newRequest k =>
    cases k with
    | none => rfl
    | some k => simp only [World.step]; split <;> rfl
  | allowNewer q x => exact onReq q _ (fun _ => rfl)
  | allowAny q x => exact onReq q _ (fun _ => rfl)
  | allowOlder q x => exact onReq q _ (fun _ => rfl)
  | update k k' => simp only [World.step]; split <;> rfl
  | remove k a =>
    simp only [World.step]
    split
    · rfl
    · split <;> rfl
  | addJob q r k =>
    simp only [World.step]
    split
    · rfl
    · split <;> rfl
  | setPoolModifiers k => exact absurd hc (by simp [Call.setsPool])
  | solve o q => exact absurd hc (by simp [Call.setsPool])
  | solveWithHint o o' q => exact absurd hc (by simp [Call.setsPool])
  | whatProvides r b => rfl

theorem poolMods_run (cs : List (Call N S U)) (hcs : ∀ c ∈ cs, Call.setsPool c = false) :
    ∀ w : World N S U, (World.run cs w).poolMods = w.poolMods := by
  induction cs with
  | nil => exact fun _ => rfl
  | cons c cs ih =>
    intro w
    rw [World.run, ih (fun c h => hcs c (by simp [h])), poolMods_step w c (hcs c (by simp))]

/-- the answer of `pool.what_provides(requirement)` -/
def World.ask (w : World N S U) (r : Requirement N U) (useModifiers : Bool := true) : Except PErr (List (Package N S U)) :=
  w.solverNow.pool.whatProvides r useModifiers

/-- The full statement of C117: between two calls that change the pool (setting its modifiers, or solving a request with it), the
pool gives the same answer to the same question. -/
def AnswersStay (s : DependencySolver N S U) : Prop :=
  ∀ (w : World N S U) (cs : List (Call N S U)), Reached s w → (∀ c ∈ cs, Call.setsPool c = false) →
    ∀ r b, World.ask (World.run cs w) r b = World.ask w r b

/-- C117: what holds exactly. After a request with modifiers was solved, and until the next call that changes the pool, the pool
answers with the modifiers that the request has at the time of the question; if the request had no modifiers when it was solved, with
none, whatever modifiers it has been given since. -/
theorem C117_follows_the_request {s : DependencySolver N S U} {w : World N S U} (h : Reached s w) {q : Nat} {obj : RequestObj N U}
    (hobj : w.requests[q]? = some obj) {v : Modifiers N} (hv : w.value obj.modifiers = some v) (o : Orders)
    (cs : List (Call N S U)) (hcs : ∀ c ∈ cs, Call.setsPool c = false) (r : Requirement N U) (b : Bool) :
    let w' := World.run cs (w.step (.solve o q)).1
    (v.targets ≠ [] → ∃ u, w'.value obj.modifiers = some u ∧
      World.ask w' r b = ({ s.pool with modifiers := some u } : Pool N S U).whatProvides r b) ∧
    (v.targets = [] → World.ask w' r b = ({ s.pool with modifiers := none } : Pool N S U).whatProvides r b) := by
  have hs : w.solver = s := by obtain ⟨hist, rfl⟩ := h; rw [solver_run]; rfl
  have hq : w.request q = some ⟨v, obj.jobs⟩ := by simp [World.request, hobj, hv]
  have e : (w.step (.solve o q)).1 = w.setPool obj := by simp only [World.step, hobj, hq]
  have hr' : Reached s (w.setPool obj) := by
    obtain ⟨hist, rfl⟩ := h
    refine ⟨hist ++ [.solve o q], ?_⟩
    rw [← e]
    have : ∀ (l : List (Call N S U)) (w : World N S U), World.run (l ++ [.solve o q]) w = ((World.run l w).step (.solve o q)).1 := by
      intro l
      induction l with
      | nil => exact fun _ => rfl
      | cons c l ih => intro w; exact ih _
    rw [this]
  have hv' : (w.setPool obj).value obj.modifiers = some v := hv
  have hval := C116_history hr' hv' cs
  have hsolver : (World.run cs (w.setPool obj)).solver = s := by rw [solver_run]; exact hs
  have hpool : (World.run cs (w.setPool obj)).poolMods = if v.targets = [] then none else some obj.modifiers := by
    rw [poolMods_run cs hcs]; simp [World.setPool, hv]
  rw [e]
  refine ⟨fun ht => ⟨_, hval, ?_⟩, fun ht => ?_⟩
  · simp only [World.ask, World.solverNow, hsolver, hpool, ht, if_false, Option.bind_some, hval]
  · simp only [World.ask, World.solverNow, hsolver, hpool, ht, if_true, Option.bind_none]

/-- C117, the part that holds: the answers stay the same as long as no call is aimed at the modifiers that the pool refers to. (What
is missing: `request.allow_newer(x)` on a request that was solved is such a call; see `C117_violated`.) -/
theorem C117_answers_stay_partial {s : DependencySolver N S U} {w : World N S U} (h : Reached s w) (cs : List (Call N S U))
    (hcs : ∀ c ∈ cs, Call.setsPool c = false) (ha : ∀ m, w.poolMods = some m → asked m cs w = []) (r : Requirement N U) (b : Bool) :
    World.ask (World.run cs w) r b = World.ask w r b := by
  have hval : (World.run cs w).poolMods.bind (World.run cs w).value = w.poolMods.bind w.value := by
    rw [poolMods_run cs hcs]
    cases hp : w.poolMods with
    | none => rfl
    | some m =>
      obtain ⟨refs, e⟩ := World.getElem?_lt (h.wf.pool m hp)
      have hv := World.value_eq e
      have := C116_history h hv cs
      rw [ha m hp] at this
      simp only [Option.bind_some, this, hv, List.foldl_nil]
  have hsolver : (World.run cs w).solver = w.solver := solver_run cs w
  simp only [World.ask, World.solverNow, hval, hsolver]

/-- C117: questions asked without modifiers always have the same answer. -/
theorem C117_without_modifiers {s : DependencySolver N S U} {w : World N S U} (h : Reached s w) (r : Requirement N U) :
    World.ask w r false = s.pool.whatProvides r false := by
  have hs : w.solver = s := by obtain ⟨hist, rfl⟩ := h; rw [solver_run]; rfl
  simp only [World.ask, World.solverNow, hs]
  rfl

end

/-! ### Concrete cases -/

namespace AliasingExample
open Verif.Pkg.Example Verif.Solve.Example

/-- package 1 in versions 1 and 2 -/
def s0 : DependencySolver Nat Str Nat := solver [] [pkg 1 1 1, pkg 1 1 2]

/-- a set `{7, 8}`; modifiers made from it, used by two requests; modifiers of their own for a third request -/
def hist : List (Call Nat Str Nat) :=
  [.newSet [7, 8], .newModifiers (.set 0) (.str 9) (.list []), .newRequest (some 0), .newRequest (some 0), .newRequest none,
    .addJob 0 (some (req 1 [.equal (v 1)])) .install, .addToSet 0 5, .allowAny 1 7]

def w0 : World Nat Str Nat := World.run hist (World.start s0)

theorem reached : Reached s0 w0 := ⟨hist, rfl⟩

/-- what a modifiers object holds, in a form that can be compared -/
def names (w : World Nat Str Nat) (m : Nat) : Option (List Nat × List Nat × List Nat) :=
  (w.value m).map (fun v => (v.allowNewer, v.allowAny, v.allowOlder))

/-- the two requests share the modifiers; the set from which they were made, and the third request, do not -/
example : names w0 0 = some ([7, 8], [9, 7], []) ∧ names w0 1 = some ([], [], []) ∧ w0.setAt 0 = [7, 8, 5] := by decide +kernel

/-- `m.remove(m.allow_any)`: 9 and 7 leave all sets -/
example : names (w0.step (.remove 0 (.set 2))).1 0 = some ([8], [], []) := by decide +kernel
/-- `m.update(m)` -/
example : names (w0.step (.update 0 0)).1 0 = some ([7, 8], [9, 7], []) := by decide +kernel
example : names (w0.step (.update 1 0)).1 1 = some ([7, 8], [9, 7], []) := by decide +kernel

example : ∃ v, w0.value 0 = some v := ⟨⟨[7, 8], [9, 7], []⟩, by rfl⟩

/-- the number of packages that the pool offers for "package 1 in version 1" -/
def offers (w : World Nat Str Nat) : Option Nat := (World.ask w (req 1 [.equal (v 1)])).toOption.map List.length

/-- the request is solved; it has modifiers, though not for package 1 -/
def w1 : World Nat Str Nat := (w0.step (.solve insertionOrder 0)).1

theorem reached1 : Reached s0 w1 := ⟨hist ++ [.solve insertionOrder 0], rfl⟩

/-- C117 is violated: the pool is asked twice, and in between the request (not the pool) is given a modifier. -/
theorem C117_violated : ∃ s : DependencySolver Nat Str Nat, ¬ AnswersStay s := by
  refine ⟨s0, fun h => ?_⟩
  have := h w1 [.allowNewer 0 1] reached1 (by simp [Call.setsPool]) (req 1 [.equal (v 1)]) true
  have h1 : offers w1 = some 1 := by decide +kernel
  have h2 : offers (World.run [.allowNewer 0 1] w1) = some 2 := by decide +kernel
  unfold offers at h1 h2
  rw [this, h1] at h2
  exact absurd h2 (by decide)

/-- the same through the request that shares the modifiers; not through the third request -/
example : offers (World.run [.allowNewer 1 1] w1) = some 2 ∧ offers (World.run [.allowNewer 2 1] w1) = some 1 := by
  decide +kernel

/-- not so after a request that had no modifiers when it was solved -/
example : offers (World.run [.addJob 2 (some (req 1)) .install, .solve insertionOrder 2, .allowNewer 2 1] w1) = some 1 := by
  decide +kernel

/-- the hypotheses of `C117_answers_stay_partial` -/
example : ∀ m, w1.poolMods = some m → asked m [.allowNewer 2 1, .newRequest none] w1 = [] := by
  intro m hm
  have h0 : w1.poolMods = some 0 := by decide +kernel
  rw [h0] at hm
  cases hm
  rfl

end AliasingExample
end Verif.Props
