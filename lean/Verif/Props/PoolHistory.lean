import Verif.Pkg.LivePool
import Verif.Props.Pools
import Verif.Props.Solve
/-
C89: asking a pool does not change what it answers. C90: an unpickled pool answers as the original.
-/
set_option linter.unusedSectionVars false
namespace Verif.Props
open Verif Verif.Pkg

variable {N S U : Type} [LinearOrder N] [DecidableEq S] [LinearOrder U] [Syntax S U]

/-! ### The live pool is the pool -/

theorem lookup_with {l : LivePool N S U} (hf : l.hasFactory = true) (n : N) :
    ∃ l', l.lookup n = (.ok ((dget l.pool.packagesByName n).getD []), l') := by
  unfold LivePool.lookup
  cases h : dget l.pool.packagesByName n with
  | some ps => exact ⟨_, rfl⟩
  | none => exact ⟨l.enter n [], by simp only [hf, if_true, Option.getD_none]⟩

theorem dset_dset {κ β : Type} [DecidableEq κ] (d : Dict κ β) (k : κ) (v w : β) : dset (dset d k v) k w = dset d k w := by
  induction d with
  | nil => simp [dset]
  | cons kv t ih =>
    by_cases e : kv.1 = k <;> simp [dset, e, ih]

theorem live_addProvides (p : Package N S U) : ∀ (cs : List (CTuple N S)) (pool : Pool N S U),
    LivePool.addProvides p cs ⟨pool, true⟩ = (⟨(Pool.addProvides p cs pool).1, true⟩, (Pool.addProvides p cs pool).2)
  | [], pool => rfl
  | c :: cs, pool => by
    unfold LivePool.addProvides Pool.addProvides
    cases fromConstraints (U := U) .plain c with
    | error e => rfl
    | ok req =>
      simp only
      split
      · rfl
      · have key : ∃ l', (⟨pool, true⟩ : LivePool N S U).lookup req.name = (.ok ((dget pool.packagesByName req.name).getD []), l') ∧
            l'.enter req.name ((dget pool.packagesByName req.name).getD [] ++ [p]) =
              ⟨{ pool with packagesByName := dset pool.packagesByName req.name ((dget pool.packagesByName req.name).getD [] ++ [p]) }, true⟩ := by
          unfold LivePool.lookup
          cases h : dget pool.packagesByName req.name with
          | some ps => exact ⟨_, rfl, rfl⟩
          | none =>
            refine ⟨_, rfl, ?_⟩
            simp only [LivePool.enter, dset_dset]
        obtain ⟨l', h1, h2⟩ := key
        rw [h1]
        simp only
        rw [h2]
        exact live_addProvides p cs _

/-- Adding packages to a live pool is adding them to the pool that `C33`, `C34` and `C40` speak of. -/
theorem live_addPackages : ∀ (ps : List (Package N S U)) (pool : Pool N S U),
    LivePool.addPackages ps ⟨pool, true⟩ = (⟨(pool.addPackages ps).1, true⟩, (pool.addPackages ps).2)
  | [], pool => rfl
  | p :: ps, pool => by
    unfold LivePool.addPackages Pool.addPackages
    have h : LivePool.addPackage p ⟨pool, true⟩ = (⟨(pool.addPackage p).1, true⟩, (pool.addPackage p).2) := by
      unfold LivePool.addPackage Pool.addPackage
      exact live_addProvides p _ _
    rw [h]
    cases hp : pool.addPackage p with
    | mk pool' e =>
      cases e with
      | some e => rfl
      | none => exact live_addPackages ps pool'

/-! ### C89 -/

/-- `b` is `a` after being asked for some names -/
structure Touched (names : N → Prop) (a b : LivePool N S U) : Prop where
  fa : a.hasFactory = true
  fb : b.hasFactory = true
  next : b.pool.nextId = a.pool.nextId
  pid : b.pool.packageToId = a.pool.packageToId
  idp : b.pool.idToPackage = a.pool.idToPackage
  mods : b.pool.modifiers = a.pool.modifiers
  get : ∀ n, dget b.pool.packagesByName n = dget a.pool.packagesByName n ∨
    dget a.pool.packagesByName n = none ∧ dget b.pool.packagesByName n = some [] ∧ names n

theorem Touched.refl (names : N → Prop) {a : LivePool N S U} (h : a.hasFactory = true) : Touched names a a :=
  ⟨h, h, rfl, rfl, rfl, rfl, fun _ => Or.inl rfl⟩

theorem Touched.mono {names names' : N → Prop} (hn : ∀ n, names n → names' n) {a b : LivePool N S U} (h : Touched names a b) :
    Touched names' a b :=
  ⟨h.fa, h.fb, h.next, h.pid, h.idp, h.mods, fun n => (h.get n).imp_right fun k => ⟨k.1, k.2.1, hn n k.2.2⟩⟩

theorem Touched.getD {names : N → Prop} {a b : LivePool N S U} (h : Touched names a b) (n : N) :
    (dget b.pool.packagesByName n).getD [] = (dget a.pool.packagesByName n).getD [] := by
  rcases h.get n with e | ⟨e1, e2, -⟩
  · rw [e]
  · rw [e1, e2]; rfl

theorem Touched.lookup {names : N → Prop} {a b : LivePool N S U} (h : Touched names a b) (n : N) :
    (b.lookup n).1 = (a.lookup n).1 ∧ Touched (fun x => names x ∨ x = n) a (b.lookup n).2 ∧
    Touched names (a.lookup n).2 (b.lookup n).2 := by
  have h0 : Touched (fun x => names x ∨ x = n) a b := h.mono fun _ => Or.inl
  obtain ⟨a', ha⟩ := lookup_with h.fa n
  obtain ⟨b', hb⟩ := lookup_with h.fb n
  refine ⟨by rw [ha, hb, h.getD], ?_, ?_⟩
  · clear ha hb
    unfold LivePool.lookup
    cases hb : dget b.pool.packagesByName n with
    | some ps => exact h0
    | none =>
      simp only [h.fb, if_true]
      have hn : dget a.pool.packagesByName n = none := by
        rcases h.get n with e | ⟨e, -⟩
        · rw [← e, hb]
        · exact e
      refine ⟨h.fa, h.fb, h.next, h.pid, h.idp, h.mods, fun k => ?_⟩
      show dget (dset b.pool.packagesByName n []) k = _ ∨ _ ∧ dget (dset b.pool.packagesByName n []) k = _ ∧ _
      rw [dget_dset]
      by_cases e : n = k
      · subst e
        rw [if_pos rfl]
        exact Or.inr ⟨hn, rfl, Or.inr rfl⟩
      · rw [if_neg e]
        exact h0.get k
  · clear ha hb
    unfold LivePool.lookup
    cases hb : dget b.pool.packagesByName n with
    | some ps =>
      cases ha : dget a.pool.packagesByName n with
      | some ps' => exact h
      | none =>
        simp only [h.fa, if_true]
        have hps : ps = [] := by
          rcases h.get n with e | ⟨-, e, -⟩
          · rw [ha, hb] at e; cases e
          · rw [hb] at e; cases e; rfl
        subst hps
        refine ⟨h.fa, h.fb, h.next, h.pid, h.idp, h.mods, fun k => ?_⟩
        show dget b.pool.packagesByName k = dget (dset a.pool.packagesByName n []) k ∨ dget (dset a.pool.packagesByName n []) k = none ∧ _
        rw [dget_dset]
        by_cases e : n = k
        · subst e
          rw [if_pos rfl]
          exact Or.inl hb
        · rw [if_neg e]
          exact h.get k
    | none =>
      have hn : dget a.pool.packagesByName n = none := by
        rcases h.get n with e | ⟨e, -⟩
        · rw [← e, hb]
        · exact e
      simp only [hn, h.fa, h.fb, if_true]
      refine ⟨h.fa, h.fb, h.next, h.pid, h.idp, h.mods, fun k => ?_⟩
      show dget (dset b.pool.packagesByName n []) k = dget (dset a.pool.packagesByName n []) k ∨
        dget (dset a.pool.packagesByName n []) k = none ∧ dget (dset b.pool.packagesByName n []) k = _ ∧ _
      rw [dget_dset, dget_dset]
      by_cases e : n = k
      · subst e
        rw [if_pos rfl, if_pos rfl]
        exact Or.inl rfl
      · rw [if_neg e, if_neg e]
        exact h.get k

theorem Touched.enter {names : N → Prop} {a b : LivePool N S U} (h : Touched names a b) (n : N) (ps : List (Package N S U)) :
    Touched names (a.enter n ps) (b.enter n ps) := by
  refine ⟨h.fa, h.fb, h.next, h.pid, h.idp, h.mods, fun k => ?_⟩
  show dget (dset b.pool.packagesByName n ps) k = dget (dset a.pool.packagesByName n ps) k ∨
    dget (dset a.pool.packagesByName n ps) k = none ∧ dget (dset b.pool.packagesByName n ps) k = _ ∧ _
  rw [dget_dset, dget_dset]
  by_cases e : n = k
  · subst e
    rw [if_pos rfl, if_pos rfl]
    exact Or.inl rfl
  · rw [if_neg e, if_neg e]
    exact h.get k

theorem Touched.addProvides {names : N → Prop} (p : Package N S U) : ∀ (cs : List (CTuple N S)) {a b : LivePool N S U},
    Touched names a b → (LivePool.addProvides p cs b).2 = (LivePool.addProvides p cs a).2 ∧
      Touched names (LivePool.addProvides p cs a).1 (LivePool.addProvides p cs b).1
  | [], a, b, h => ⟨rfl, h⟩
  | c :: cs, a, b, h => by
    unfold LivePool.addProvides
    cases hc : fromConstraints (U := U) .plain c with
    | error e => exact ⟨rfl, h⟩
    | ok req =>
      simp only
      split
      · exact ⟨rfl, h⟩
      · obtain ⟨h1, -, h2⟩ := h.lookup req.name
        obtain ⟨a', ha⟩ := lookup_with h.fa req.name
        obtain ⟨b', hb⟩ := lookup_with h.fb req.name
        rw [ha, hb] at h2
        simp only [ha, hb, h.getD]
        exact Touched.addProvides p cs (h2.enter _ _)

theorem Touched.addPackage {names : N → Prop} {a b : LivePool N S U} (h : Touched names a b) (p : Package N S U) :
    (b.addPackage p).2 = (a.addPackage p).2 ∧ Touched names (a.addPackage p).1 (b.addPackage p).1 := by
  unfold LivePool.addPackage
  refine Touched.addProvides p _ ⟨h.fa, h.fb, ?_, ?_, ?_, h.mods, h.get⟩
  · simp only [h.next]
  · simp only [h.next, h.pid]
  · simp only [h.next, h.idp]

theorem Touched.addPackages {names : N → Prop} : ∀ (ps : List (Package N S U)) {a b : LivePool N S U}, Touched names a b →
    (b.addPackages ps).2 = (a.addPackages ps).2 ∧ Touched names (a.addPackages ps).1 (b.addPackages ps).1
  | [], a, b, h => ⟨rfl, h⟩
  | p :: ps, a, b, h => by
    obtain ⟨h1, h2⟩ := h.addPackage p
    unfold LivePool.addPackages
    cases ha : a.addPackage p with
    | mk a' ea =>
      cases hb : b.addPackage p with
      | mk b' eb =>
        rw [ha, hb] at h1 h2
        simp only at h1 h2
        subst h1
        cases eb with
        | some e => exact ⟨rfl, h2⟩
        | none => exact Touched.addPackages ps h2

theorem Touched.change {names : N → Prop} {a b : LivePool N S U} (h : Touched names a b) {c : PoolCall N S U} (hc : c.isChange = true) :
    (b.call c).1 = (a.call c).1 ∧ Touched names (a.call c).2 (b.call c).2 := by
  cases c with
  | addRepository r =>
    obtain ⟨h1, h2⟩ := h.addPackages r.iter
    simp only [LivePool.call]
    cases ha : a.addPackages r.iter with
    | mk a' ea =>
      cases hb : b.addPackages r.iter with
      | mk b' eb =>
        rw [ha, hb] at h1 h2
        simp only at h1 h2
        subst h1
        cases eb <;> exact ⟨rfl, h2⟩
  | setModifiers m => exact ⟨rfl, h.fa, h.fb, h.next, h.pid, h.idp, rfl, h.get⟩
  | whatProvides r b => cases hc
  | nameToPackages n => cases hc
  | packageId p => cases hc
  | idToPackage i => cases hc
  | packageIds => cases hc

theorem Touched.question {names : N → Prop} {a b : LivePool N S U} (h : Touched names a b) {c : PoolCall N S U}
    (hc : c.isChange = false) : Touched (fun x => names x ∨ c = .nameToPackages x) a (b.call c).2 := by
  have h0 : Touched (fun x => names x ∨ c = .nameToPackages x) a b := h.mono fun _ => Or.inl
  cases c with
  | addRepository r => cases hc
  | setModifiers m => cases hc
  | whatProvides r b => exact h0
  | nameToPackages n => exact (h.lookup n).2.1.mono fun x hx => hx.imp_right fun e => by rw [e]
  | packageId p => exact h0
  | idToPackage i => exact h0
  | packageIds => exact h0

theorem Touched.calls : ∀ (h : List (PoolCall N S U)) {names : N → Prop} {a b : LivePool N S U}, Touched names a b →
    Touched (fun x => names x ∨ PoolCall.nameToPackages x ∈ h) (a.calls (h.filter PoolCall.isChange)) (b.calls h)
  | [], _, _, _, ht => ht.mono fun _ => Or.inl
  | c :: h, _, a, b, ht => by
    cases hc : c.isChange with
    | true =>
      rw [List.filter_cons_of_pos hc]
      exact (Touched.calls h (ht.change hc).2).mono fun x hx => hx.imp_right fun k => by simp [k]
    | false =>
      rw [List.filter_cons_of_neg (by simp [hc])]
      refine (Touched.calls h (ht.question hc)).mono fun x hx => ?_
      rcases hx with (hx | rfl) | hx
      · exact Or.inl hx
      · exact Or.inr (by simp)
      · exact Or.inr (by simp [hx])

/-- the answer to `c` after the calls `h` on a new pool -/
def answerAfter (m : Option (Modifiers N)) (h : List (PoolCall N S U)) (c : PoolCall N S U) : PoolAnswer N S U :=
  (((LivePool.new m).calls h).call c).1

/-- **C89** (partial). The answer to a call does not depend on the questions asked before, with one exception:
`what_provides(r)` for a requirement that is not an InstallRequirement, whose name no package provides but
`name_to_packages` was asked for, can raise NotImplementedError instead of returning nothing. (The full property, without the
exception, is violated: `C89_violated`.) -/
theorem C89_questions_partial (m : Option (Modifiers N)) (h : List (PoolCall N S U)) (c : PoolCall N S U) :
    answerAfter m h c = answerAfter m (h.filter PoolCall.isChange) c ∨
    ∃ r, c = .whatProvides r true ∧ r.cls ≠ .install ∧ PoolCall.nameToPackages r.name ∈ h ∧
      answerAfter m (h.filter PoolCall.isChange) (.nameToPackages r.name) = .packages [] ∧
      answerAfter m (h.filter PoolCall.isChange) c = .packages [] ∧
      answerAfter m h c = .raised .notImplemented := by
  have ht : Touched (fun x => False ∨ PoolCall.nameToPackages x ∈ h) ((LivePool.new m).calls (h.filter PoolCall.isChange))
      ((LivePool.new m : LivePool N S U).calls h) := Touched.calls h (Touched.refl (fun _ => False) rfl)
  unfold answerAfter
  revert ht
  generalize (LivePool.new m : LivePool N S U).calls (h.filter PoolCall.isChange) = a
  generalize (LivePool.new m : LivePool N S U).calls h = b
  intro ht
  cases c with
  | addRepository r => exact Or.inl (ht.change rfl).1
  | setModifiers m => exact Or.inl (ht.change rfl).1
  | nameToPackages n =>
    left
    show PoolAnswer.of _ (b.lookup n).1 = PoolAnswer.of _ (a.lookup n).1
    rw [(ht.lookup n).1]
  | packageId p =>
    left
    show PoolAnswer.of _ (b.pool.packageId p) = PoolAnswer.of _ (a.pool.packageId p)
    unfold Pool.packageId
    rw [ht.pid]
  | idToPackage i =>
    left
    show PoolAnswer.of _ (b.pool.idToPkg i) = PoolAnswer.of _ (a.pool.idToPkg i)
    unfold Pool.idToPkg
    rw [ht.idp]
  | packageIds =>
    left
    show PoolAnswer.ids (dkeys b.pool.idToPackage) = PoolAnswer.ids (dkeys a.pool.idToPackage)
    rw [ht.idp]
  | whatProvides r um =>
    show PoolAnswer.of _ (b.pool.whatProvides r um) = PoolAnswer.of _ (a.pool.whatProvides r um) ∨ _
    have hmod : b.pool.modifyRequirement r = a.pool.modifyRequirement r := by
      unfold Pool.modifyRequirement
      rw [ht.mods]
    have hmodn : ∀ r', (if um then a.pool.modifyRequirement r else Except.ok r) = .ok r' → r'.name = r.name := by
      intro r' hr
      exact looked_name ((looked_iff a.pool um r r').1 hr)
    rcases ht.get r.name with e | ⟨e1, e2, e3⟩
    · left
      congr 1
      unfold Pool.whatProvides
      rw [e, hmod]
      cases ha : dget a.pool.packagesByName r.name with
      | none => rfl
      | some ps =>
        simp only
        cases hr : (if um = true then a.pool.modifyRequirement r else Except.ok r) with
        | error x => rfl
        | ok r' => simp only [ht.getD]
    · have hempty : a.pool.whatProvides r um = .ok [] := by unfold Pool.whatProvides; rw [e1]
      have hb : b.pool.whatProvides r um = match (if um = true then a.pool.modifyRequirement r else Except.ok r) with
          | .error x => .error x
          | .ok _ => .ok [] := by
        unfold Pool.whatProvides
        rw [e2, hmod]
        simp only
        cases hr : (if um = true then a.pool.modifyRequirement r else Except.ok r) with
        | error x => rfl
        | ok r' => simp only [hmodn r' hr, e2, Option.getD_some, List.filter_nil]
      have hname : PoolAnswer.of PoolAnswer.packages (a.nameToPackages r.name).1 = (PoolAnswer.packages [] : PoolAnswer N S U) := by
        unfold LivePool.nameToPackages LivePool.lookup
        rw [e1]
        simp only [ht.fa, if_true]
        rfl
      rw [hempty, hb]
      cases um with
      | false => left; rfl
      | true =>
        simp only [if_true]
        cases hr : a.pool.modifyRequirement r with
        | ok r' => left; rfl
        | error x =>
          right
          have hx : x = .notImplemented ∧ r.cls ≠ .install := by
            unfold Pool.modifyRequirement at hr
            split at hr
            · unfold modifyRequirement at hr
              split at hr
              · cases hr
              · next hcls =>
                split at hr
                · split at hr
                  · cases hr; exact ⟨rfl, fun e => by exact hcls e⟩
                  · cases hr
                · cases hr
            · cases hr
          refine ⟨r, rfl, hx.2, by simpa using e3, hname, ?_, ?_⟩
          · show PoolAnswer.of _ (a.pool.whatProvides r true) = _
            rw [hempty]; rfl
          · show PoolAnswer.of _ (b.pool.whatProvides r true) = _
            rw [hb, if_pos rfl, hr, hx.1]; rfl

/-- C89: the repositories added decide. After adding repositories that are not refused, every call is answered as by the pool
`Pool.addRepositories rs`, about which `C33`, `C34` and `C40` say what it contains and what it answers. -/
theorem C89_after_additions (m : Option (Modifiers N)) (rs : List (Repository N S U)) {pool : Pool N S U}
    (h : Pool.addRepositories rs (Pool.empty m) = (pool, none)) (c : PoolCall N S U) :
    answerAfter m (rs.map .addRepository) c = ((⟨pool, true⟩ : LivePool N S U).call c).1 := by
  unfold answerAfter LivePool.new
  suffices h : ∀ (rs : List (Repository N S U)) (pool0 : Pool N S U), Pool.addRepositories rs pool0 = (pool, none) →
      LivePool.calls (rs.map .addRepository) ⟨pool0, true⟩ = ⟨pool, true⟩ by
    rw [h rs _ ‹_›]
  intro rs
  induction rs with
  | nil => intro pool0 h; cases h; rfl
  | cons r rs ih =>
    intro pool0 h
    rw [List.map_cons, LivePool.calls]
    unfold Pool.addRepositories at h
    have h1 : ((⟨pool0, true⟩ : LivePool N S U).call (.addRepository r)).2 = ⟨(pool0.addPackages r.iter).1, true⟩ := by
      simp only [LivePool.call, live_addPackages]
      cases (pool0.addPackages r.iter).2 <;> rfl
    rw [h1]
    cases hp : pool0.addPackages r.iter with
    | mk pool' e =>
      rw [hp] at h
      cases e with
      | some e => cases h
      | none => exact ih _ h

/-- C89 (partial): asking for the name of a package of the pool, as the solver does for installed packages, leaves the pool as
it is. -/
theorem C89_known_names_partial {l : LivePool N S U} {ps : List (Package N S U)} (hl : l.pool.OK ps) {p : Package N S U} (hp : p ∈ ps)
    {n : N} (hn : Provides p n) : (l.call (.nameToPackages n)).2 = l := by
  have : n ∈ dkeys l.pool.packagesByName := (hl.names.has n).2 ⟨p, hp, (provides_iff p n).1 hn⟩
  obtain ⟨v, hv⟩ := (mem_dkeys_iff _ _).1 this
  show (l.lookup n).2 = l
  unfold LivePool.lookup
  rw [hv]

/-! ### C90 -/

/-- the pool, once it was written and read back; nothing if that is not possible -/
def unpickledPool (l : LivePool N S U) : Option (LivePool N S U) :=
  match l.unpickled with
  | (l, none) => some l
  | (_, some _) => none

/-- A call that an unpickled pool can answer: it only concerns names that packages of the pool provide. -/
def KnownNames (l : LivePool N S U) : PoolCall N S U → Prop
  | .nameToPackages n => n ∈ dkeys l.pool.packagesByName
  | .addRepository r => ∀ p ∈ r.iter, ∀ n, Provides p n → n ∈ dkeys l.pool.packagesByName
  | _ => True

/-- the same pool, but for the factory -/
def SamePool (a b : LivePool N S U) : Prop := a.pool = b.pool

theorem lookup_known {l : LivePool N S U} {n : N} (h : n ∈ dkeys l.pool.packagesByName) :
    l.lookup n = (.ok ((dget l.pool.packagesByName n).getD []), l) := by
  obtain ⟨v, hv⟩ := (mem_dkeys_iff _ _).1 h
  unfold LivePool.lookup
  rw [hv]
  rfl

theorem keys_enter (l : LivePool N S U) (n : N) (ps : List (Package N S U)) {k : N}
    (h : k ∈ dkeys l.pool.packagesByName) : k ∈ dkeys (l.enter n ps).pool.packagesByName := by
  show k ∈ dkeys (dset l.pool.packagesByName n ps)
  rw [dkeys_dset]
  split
  · exact h
  · exact List.mem_append_left _ h

/-- additions of known names -/
theorem SamePool.addProvides (p : Package N S U) : ∀ (cs : List (CTuple N S)) {a b : LivePool N S U}, SamePool a b →
    (∀ t ∈ cs, t.1 ∈ dkeys a.pool.packagesByName) →
    (LivePool.addProvides p cs b).2 = (LivePool.addProvides p cs a).2 ∧
    SamePool (LivePool.addProvides p cs a).1 (LivePool.addProvides p cs b).1 ∧
    ∀ k ∈ dkeys a.pool.packagesByName, k ∈ dkeys (LivePool.addProvides p cs a).1.pool.packagesByName
  | [], a, b, h, _ => ⟨rfl, h, fun _ hk => hk⟩
  | c :: cs, a, b, h, hk => by
    have hc := hk c (by simp)
    have hcb : c.1 ∈ dkeys b.pool.packagesByName := by rw [← show a.pool = b.pool from h]; exact hc
    unfold LivePool.addProvides
    cases hr : fromConstraints (U := U) .plain c with
    | error e => exact ⟨rfl, h, fun _ hk => hk⟩
    | ok req =>
      have hn : req.name = c.1 := (fromConstraints_name hr).1
      simp only
      split
      · exact ⟨rfl, h, fun _ hk => hk⟩
      · rw [hn, lookup_known hc, lookup_known hcb]
        simp only
        have he : SamePool (a.enter c.1 ((dget a.pool.packagesByName c.1).getD [] ++ [p]))
            (b.enter c.1 ((dget b.pool.packagesByName c.1).getD [] ++ [p])) := by
          have h : a.pool = b.pool := h
          unfold SamePool LivePool.enter
          simp only [h]
        obtain ⟨i1, i2, i3⟩ := SamePool.addProvides p cs he (fun t ht => keys_enter _ _ _ (hk t (by simp [ht])))
        exact ⟨i1, i2, fun k hk => i3 k (keys_enter _ _ _ hk)⟩

theorem SamePool.addPackages : ∀ (ps : List (Package N S U)) {a b : LivePool N S U}, SamePool a b →
    (∀ p ∈ ps, ∀ n, Provides p n → n ∈ dkeys a.pool.packagesByName) →
    (b.addPackages ps).2 = (a.addPackages ps).2 ∧ SamePool (a.addPackages ps).1 (b.addPackages ps).1 ∧
    ∀ k ∈ dkeys a.pool.packagesByName, k ∈ dkeys (a.addPackages ps).1.pool.packagesByName
  | [], a, b, h, _ => ⟨rfl, h, fun _ hk => hk⟩
  | p :: ps, a, b, h, hk => by
    have h' : a.pool = b.pool := h
    have key : (b.addPackage p).2 = (a.addPackage p).2 ∧ SamePool (a.addPackage p).1 (b.addPackage p).1 ∧
        ∀ k ∈ dkeys a.pool.packagesByName, k ∈ dkeys (a.addPackage p).1.pool.packagesByName := by
      unfold LivePool.addPackage
      refine SamePool.addProvides p _ ?_ ?_
      · unfold SamePool; simp only [h']
      · intro t ht
        refine hk p (by simp) t.1 ?_
        rw [provides_iff, ← p.provNames_eq]
        exact List.mem_map_of_mem ht
    obtain ⟨h1, h2, h3⟩ := key
    unfold LivePool.addPackages
    cases ha : a.addPackage p with
    | mk a' ea =>
      cases hb : b.addPackage p with
      | mk b' eb =>
        rw [ha, hb] at h1 h2
        rw [ha] at h3
        simp only at h1 h2 h3
        subst h1
        cases eb with
        | some e => exact ⟨rfl, h2, h3⟩
        | none =>
          obtain ⟨i1, i2, i3⟩ := SamePool.addPackages ps h2 (fun q hq n hn => h3 n (hk q (by simp [hq]) n hn))
          exact ⟨i1, i2, fun k hk => i3 k (h3 k hk)⟩

theorem SamePool.call {a b : LivePool N S U} (h : SamePool a b) {c : PoolCall N S U} (hc : KnownNames a c) :
    (b.call c).1 = (a.call c).1 ∧ SamePool (a.call c).2 (b.call c).2 ∧
    ∀ k ∈ dkeys a.pool.packagesByName, k ∈ dkeys (a.call c).2.pool.packagesByName := by
  have h' : a.pool = b.pool := h
  cases c with
  | addRepository r =>
    obtain ⟨h1, h2, h3⟩ := h.addPackages r.iter hc
    simp only [LivePool.call]
    cases ha : a.addPackages r.iter with
    | mk a' ea =>
      cases hb : b.addPackages r.iter with
      | mk b' eb =>
        rw [ha, hb] at h1 h2
        rw [ha] at h3
        simp only at h1 h2 h3
        subst h1
        cases eb <;> exact ⟨rfl, h2, h3⟩
  | setModifiers m =>
    refine ⟨rfl, ?_, fun _ hk => hk⟩
    show ({ a.pool with modifiers := m } : Pool N S U) = { b.pool with modifiers := m }
    rw [h']
  | nameToPackages n =>
    have hc : n ∈ dkeys a.pool.packagesByName := hc
    have hcb : n ∈ dkeys b.pool.packagesByName := by rw [← h']; exact hc
    simp only [LivePool.call, LivePool.nameToPackages, lookup_known hc, lookup_known hcb]
    exact ⟨by rw [h'], h, fun _ hk => hk⟩
  | whatProvides r um =>
    simp only [LivePool.call]
    exact ⟨by rw [h'], h, fun _ hk => hk⟩
  | packageId p =>
    simp only [LivePool.call]
    exact ⟨by rw [h'], h, fun _ hk => hk⟩
  | idToPackage i =>
    simp only [LivePool.call]
    exact ⟨by rw [h'], h, fun _ hk => hk⟩
  | packageIds =>
    simp only [LivePool.call]
    exact ⟨by rw [h'], h, fun _ hk => hk⟩

/-- **C90** (partial). A pool that was written with pickle and read back gives the same answers as the original to every sequence of
calls which concern only names that the pool knows. (The full property, for all calls, is violated: `C90_violated`.) -/
theorem C90_unpickled_partial {l l' : LivePool N S U} (h : unpickledPool l = some l') (cs : List (PoolCall N S U))
    (hk : ∀ c ∈ cs, KnownNames l c) : l'.answers cs = l.answers cs := by
  have key : ∀ (cs : List (PoolCall N S U)) {a b : LivePool N S U}, SamePool a b →
      (∀ k ∈ dkeys l.pool.packagesByName, k ∈ dkeys a.pool.packagesByName) → (∀ c ∈ cs, KnownNames l c) →
      b.answers cs = a.answers cs := by
    intro cs
    induction cs with
    | nil => intro a b _ _ _; rfl
    | cons c cs ih =>
      intro a b h h2 hk
      have hc : KnownNames a c := by
        have := hk c (by simp)
        cases c with
        | addRepository r => exact fun p hp n hn => h2 n (this p hp n hn)
        | nameToPackages n => exact h2 n this
        | _ => trivial
      obtain ⟨i1, i2, i3⟩ := h.call hc
      simp only [LivePool.answers, i1]
      rw [ih i2 (fun k hk => i3 k (h2 k hk)) (fun c hc => hk c (by simp [hc]))]
  refine key cs ?_ (fun _ hk => hk) hk
  unfold unpickledPool LivePool.unpickled at h
  split at h
  · next x hx =>
    cases h
    split at hx
    · cases hx; rfl
    · cases hx
  · cases h

theorem addPackages_typeError : ∀ (ps : List (Package N S U)) {l : LivePool N S U}, l.hasFactory = false →
    (l.addPackages ps).2 = none → (∀ p ∈ ps, ∀ n, Provides p n → n ∈ dkeys l.pool.packagesByName) := by
  have prov : ∀ (p : Package N S U) (cs : List (CTuple N S)) {l : LivePool N S U}, l.hasFactory = false →
      (LivePool.addProvides p cs l).2 = none →
      (∀ t ∈ cs, t.1 ∈ dkeys l.pool.packagesByName) ∧ (LivePool.addProvides p cs l).1.hasFactory = false ∧
      ∀ k, k ∈ dkeys (LivePool.addProvides p cs l).1.pool.packagesByName → k ∈ dkeys l.pool.packagesByName := by
    intro p cs
    induction cs with
    | nil => intro l hf _; exact ⟨by simp, hf, fun _ hk => hk⟩
    | cons c cs ih =>
      intro l hf h
      unfold LivePool.addProvides at h ⊢
      cases hr : fromConstraints (U := U) .plain c with
      | error e => rw [hr] at h; cases h
      | ok req =>
        have hn : req.name = c.1 := (fromConstraints_name hr).1
        rw [hr] at h
        simp only at h ⊢
        split at h
        · cases h
        · next hv =>
          rw [if_neg hv]
          cases hg : dget l.pool.packagesByName c.1 with
          | none =>
            have : l.lookup c.1 = (.error .typeError, l) := by
              unfold LivePool.lookup
              rw [hg]
              simp only [hf, Bool.false_eq_true, if_false]
            rw [hn, this] at h
            cases h
          | some v =>
            have hc : c.1 ∈ dkeys l.pool.packagesByName := (mem_dkeys_iff _ _).2 ⟨v, hg⟩
            rw [hn, lookup_known hc] at h ⊢
            simp only at h ⊢
            obtain ⟨i1, i2, i3⟩ := ih (l := l.enter c.1 ((dget l.pool.packagesByName c.1).getD [] ++ [p])) hf h
            have back : ∀ {k}, k ∈ dkeys (l.enter c.1 ((dget l.pool.packagesByName c.1).getD [] ++ [p])).pool.packagesByName →
                k ∈ dkeys l.pool.packagesByName := by
              intro k hk
              have hk : k ∈ dkeys (dset l.pool.packagesByName c.1 ((dget l.pool.packagesByName c.1).getD [] ++ [p])) := hk
              rw [dkeys_dset, if_pos hc] at hk
              exact hk
            refine ⟨?_, i2, fun k hk => back (i3 k hk)⟩
            intro t ht
            rcases List.mem_cons.1 ht with rfl | ht
            · exact hc
            · exact back (i1 t ht)
  intro ps
  induction ps with
  | nil => intro l _ _ p hp; cases hp
  | cons p ps ih =>
    intro l hf h q hq n hn
    unfold LivePool.addPackages at h
    cases hp : l.addPackage p with
    | mk l' e =>
      rw [hp] at h
      cases e with
      | some e => cases h
      | none =>
        simp only at h
        unfold LivePool.addPackage at hp
        obtain ⟨j1, j2, j3⟩ := prov p p.provides (l := _) (by exact hf) (congrArg Prod.snd hp)
        rw [hp] at j2 j3
        rcases List.mem_cons.1 hq with rfl | hq
        · rw [provides_iff, ← q.provNames_eq] at hn
          obtain ⟨t, ht, rfl⟩ := List.mem_map.1 hn
          exact j1 t ht
        · exact j3 n (ih j2 h q hq n hn)

theorem call_factory (l : LivePool N S U) (c : PoolCall N S U) : (l.call c).2.hasFactory = l.hasFactory := by
  have look : ∀ (l : LivePool N S U) n, (l.lookup n).2.hasFactory = l.hasFactory := by
    intro l n
    unfold LivePool.lookup
    split
    · rfl
    · split <;> rfl
  have prov : ∀ (p : Package N S U) (cs : List (CTuple N S)) (l : LivePool N S U),
      (LivePool.addProvides p cs l).1.hasFactory = l.hasFactory := by
    intro p cs
    induction cs with
    | nil => intro l; rfl
    | cons t ts ih =>
      intro l
      unfold LivePool.addProvides
      split
      · rfl
      · next r hr =>
        split
        · rfl
        · have := look l r.name
          split
          · next he => rw [he] at this; exact this
          · next he =>
            rw [ih]
            rw [he] at this
            exact this
  have adds : ∀ (ps : List (Package N S U)) (l : LivePool N S U), (l.addPackages ps).1.hasFactory = l.hasFactory := by
    intro ps
    induction ps with
    | nil => intro l; rfl
    | cons p ps ih =>
      intro l
      have h1 : (LivePool.addPackage p l).1.hasFactory = l.hasFactory := prov p _ _
      unfold LivePool.addPackages
      split
      · next l' e he => rw [he] at h1; exact h1
      · next l' he => rw [he] at h1; rw [ih]; exact h1
  cases c with
  | addRepository r =>
    have := adds r.iter l
    simp only [LivePool.call]
    split
    · next l' he => rw [he] at this; exact this
    · next l' e he => rw [he] at this; exact this
  | nameToPackages n => exact look l n
  | setModifiers m => rfl
  | whatProvides r b => rfl
  | packageId p => rfl
  | idToPackage i => rfl
  | packageIds => rfl

/-- C90: a copy cannot be copied again, whatever was done with it: TypeError. -/
theorem C90_copy_of_copy {l l' : LivePool N S U} (h : unpickledPool l = some l') (cs : List (PoolCall N S U)) :
    (l'.calls cs).unpickled.2 = some .typeError := by
  have hf : l'.hasFactory = false := by
    unfold unpickledPool LivePool.unpickled at h
    split at h
    · next x hx =>
      cases h
      split at hx
      · cases hx; rfl
      · cases hx
    · cases h
  have : (l'.calls cs).hasFactory = false := by
    clear h
    induction cs generalizing l' with
    | nil => exact hf
    | cons c cs ih => exact ih (by rw [call_factory]; exact hf)
  unfold LivePool.unpickled
  rw [this]
  rfl

example : (unpickledPool (LivePool.new (N := N) (S := S) (U := U) none)).isSome = true := rfl

/-- C90: exactly when it goes wrong: an unpickled pool refuses every repository with a package that provides a name which is new to
the pool, and every question for the packages of a new name. -/
theorem C90_refuses {l l' : LivePool N S U} (h : unpickledPool l = some l') {n : N} (hn : n ∉ dkeys l.pool.packagesByName) :
    (l'.call (.nameToPackages n)).1 = .raised .typeError ∧
    ∀ r : Repository N S U, (∃ p ∈ r.iter, Provides p n) → ∃ e, (l'.call (.addRepository r)).1 = .raised e := by
  have hl : l'.hasFactory = false ∧ l'.pool = l.pool := by
    unfold unpickledPool LivePool.unpickled at h
    split at h
    · next x hx =>
      cases h
      split at hx
      · cases hx; exact ⟨rfl, rfl⟩
      · cases hx
    · cases h
  have hg : dget l'.pool.packagesByName n = none := by rw [hl.2]; exact (dget_none_iff _ _).2 hn
  constructor
  · show PoolAnswer.of _ (l'.lookup n).1 = _
    unfold LivePool.lookup
    rw [hg]
    simp only [hl.1, Bool.false_eq_true, if_false]
    rfl
  · rintro r ⟨p, hp, hpn⟩
    simp only [LivePool.call]
    cases ha : l'.addPackages r.iter with
    | mk a' ea =>
      cases ea with
      | some e => exact ⟨e, rfl⟩
      | none =>
        have := addPackages_typeError r.iter hl.1 (by rw [ha]) p hp n hpn
        rw [hl.2] at this
        exact absurd this hn

/-! ### Concrete cases -/

namespace PoolHistoryExample
open Verif.Pkg.Example Verif.Solve.Example SolveExample

/-- packages by name and version, or the exception -/
inductive Shown where
  | packages (ps : List (Nat × Version Nat))
  | raised (e : PErr)
  | other
deriving DecidableEq

def shown : PoolAnswer Nat Str Nat → Shown
  | .packages ps => .packages (ps.map fun p => (p.name, p.version))
  | .raised e => .raised e
  | _ => .other

/-- a conflict with versions of 7 below 1 -/
def conflict7 : Requirement Nat Nat := ⟨.conflict, 7, [.lt (v 1)]⟩

/-- newer versions of 7 than required are to be accepted -/
def newer7 : Modifiers Nat := ⟨[7], [], []⟩

def repo1 : Repository Nat Str Nat := Repository.ofList remote

/-- C89 fails: `what_provides` finds nothing for a name that no package provides, but raises NotImplementedError once
`name_to_packages` was asked for that name. -/
theorem C89_violated :
    shown (answerAfter (some newer7) [.addRepository repo1] (.whatProvides conflict7 true)) = .packages [] ∧
    shown (answerAfter (some newer7) [.addRepository repo1, .nameToPackages 7] (.nameToPackages 7)) = .packages [] ∧
    shown (answerAfter (some newer7) [.addRepository repo1, .nameToPackages 7] (.whatProvides conflict7 true)) =
      .raised .notImplemented := by decide +kernel

/-- with an InstallRequirement the answer stays the same -/
example : answerAfter (some newer7) [.addRepository repo1, .nameToPackages 7] (.whatProvides (req 7) true) =
    answerAfter (some newer7) [.addRepository repo1] (.whatProvides (req 7) true) := by
  rcases C89_questions_partial (some newer7) [.addRepository repo1, .nameToPackages 7] (.whatProvides (req 7) true) with h | h
  · exact h
  · obtain ⟨r, h1, h2, -⟩ := h
    cases h1
    exact absurd (by decide +kernel) h2

/-- an ordinary answer -/
example : shown (answerAfter none [.packageIds, .addRepository repo1, .nameToPackages 7] (.whatProvides (req 1) true)) =
    .packages [(1, v 2)] := by decide +kernel

/-- the pool with `repo1` -/
def live : LivePool Nat Str Nat := (LivePool.new none).calls [.addRepository repo1]

def copyAnswers (cs : List (PoolCall Nat Str Nat)) : Option (List Shown) :=
  (unpickledPool live).map (fun l => (l.answers cs).map shown)

/-- C90 fails: the original answers, its unpickled copy raises TypeError -/
theorem C90_violated :
    (live.answers [.nameToPackages 7, .addRepository (Repository.ofList [pkg 5 7 1])]).map shown = [.packages [], .other] ∧
    copyAnswers [.nameToPackages 7, .addRepository (Repository.ofList [pkg 5 7 1])] =
      some [.raised .typeError, .raised .typeError] := by decide +kernel

/-- `C90_unpickled_partial` applies: the names of `repo1` are known -/
example : copyAnswers [.nameToPackages 1, .whatProvides (req 1) true, .addRepository (Repository.ofList [pkg 5 1 9]), .nameToPackages 1] =
    some ((live.answers [.nameToPackages 1, .whatProvides (req 1) true, .addRepository (Repository.ofList [pkg 5 1 9]),
      .nameToPackages 1]).map shown) := by
  have h : unpickledPool live = some { live with hasFactory := false } := by
    have : live.hasFactory = true := by decide +kernel
    unfold unpickledPool LivePool.unpickled
    rw [if_pos this]
  unfold copyAnswers
  rw [h, Option.map_some, C90_unpickled_partial h]
  intro c hc
  have h1 : (1 : Nat) ∈ dkeys live.pool.packagesByName := by decide +kernel
  simp only [List.mem_cons, List.not_mem_nil, or_false] at hc
  rcases hc with rfl | rfl | rfl | rfl
  · exact h1
  · trivial
  · intro p hp n hn
    have : ∀ p ∈ (Repository.ofList [pkg 5 1 9]).iter, ∀ n ∈ p.provNames, n = 1 := by decide +kernel
    rw [this p hp n ((provides_iff p n).1 hn)]
    exact h1
  · exact h1

end PoolHistoryExample

end Verif.Props
