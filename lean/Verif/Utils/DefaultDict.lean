import Verif.PyDict
/-
Model of `DefaultOrderedDict` (simplesat/utils/_collections.py) with `list` as the default factory, as in pool.py:32.

Dictionaries and the lists in them are objects that are changed in place and can be shared, so each has a place in a store.  The
elements of the lists do not matter and are values here (`copy.deepcopy` of a package is an equal package).  Not modelled: other
factories, `__repr__`, and the methods that OrderedDict has besides.
-/
namespace Verif.Utils
open Verif

/-- What is raised: KeyError, TypeError (`default_factory` is called but is not callable); `noSuch` if a call names a dictionary
that does not exist, which cannot be written in Python. -/
inductive DErr where
  | keyError
  | typeError
  | noSuch
  deriving DecidableEq

/-- A DefaultOrderedDict: the items, with the lists by reference, and whether `default_factory` is `list` or, after
unpickling, something that cannot be called; _collections.py:9-11 -/
structure DictObj (K : Type) where
  items : Dict K Nat
  factory : Bool
  deriving DecidableEq

/-- All lists and all dictionaries at one moment -/
structure Store (K V : Type) where
  lists : List (List V)
  dicts : List (DictObj K)
  deriving DecidableEq

/-- What can be done with dictionaries -/
inductive DCall (K V : Type) where
  /-- `DefaultOrderedDict(list)` -/
  | create
  /-- `d[k]` -/
  | get (d : Nat) (k : K)
  /-- `d[k].append(x)` -/
  | append (d : Nat) (k : K) (x : V)
  /-- `d[k] = [...]`, a new list -/
  | assign (d : Nat) (k : K) (l : List V)
  /-- `d[k] = e[k']` -/
  | share (d : Nat) (k : K) (e : Nat) (k' : K)
  /-- `d.pop(k)` -/
  | pop (d : Nat) (k : K)
  /-- `d.copy()` or `copy.copy(d)` -/
  | copy (d : Nat)
  /-- `copy.deepcopy(d)` -/
  | deepcopy (d : Nat)
  /-- `pickle.loads(pickle.dumps(d))` -/
  | pickle (d : Nat)

section
variable {K V : Type} [DecidableEq K]

/-- the items of a deep copy: each item is copied by itself, without the memo; _collections.py:33-35 -/
def deepItems : Dict K Nat → List (List V) → Dict K Nat × List (List V)
  | [], L => ([], L)
  | (k, a) :: t, L =>
    let r := deepItems t (L ++ [L.getD a []])
    ((k, L.length) :: r.1, r.2)

/-- the items after pickling and unpickling: a list that was written already is written as a reference to it (`memo`: which list
has been rebuilt as which); _collections.py:23-25 and the protocol of pickle -/
def pickleItems : Dict K Nat → Dict Nat Nat → List (List V) → Dict K Nat × List (List V)
  | [], _, L => ([], L)
  | (k, a) :: t, memo, L =>
    match dget memo a with
    | some b => let r := pickleItems t memo L
      ((k, b) :: r.1, r.2)
    | none => let r := pickleItems t (dset memo a L.length) (L ++ [L.getD a []])
      ((k, L.length) :: r.1, r.2)

namespace Store

/-- the elements of a list -/
def listAt (w : Store K V) (a : Nat) : List V := w.lists.getD a []

/-- `[...]`: a new list -/
def newList (w : Store K V) (l : List V) : Store K V × Nat := ({ w with lists := w.lists ++ [l] }, w.lists.length)

/-- a new dictionary -/
def newDict (w : Store K V) (o : DictObj K) : Store K V := { w with dicts := w.dicts ++ [o] }

/-- a dictionary is changed in place -/
def setDict (w : Store K V) (d : Nat) (o : DictObj K) : Store K V := { w with dicts := w.dicts.set d o }

/-- `d[k]`: `__getitem__` and `__missing__`; _collections.py:13-21 -/
def get (w : Store K V) (d : Nat) (k : K) : Except DErr Nat × Store K V :=
  match w.dicts[d]? with
  | none => (.error .noSuch, w)
  | some o => match dget o.items k with
    | some a => (.ok a, w)
    | none =>
      if o.factory then
        let r := w.newList []
        (.ok r.2, r.1.setDict d { o with items := dset o.items k r.2 })
      else (.error .typeError, w)

/-- `d[k] = <the list a>`: OrderedDict's `__setitem__` -/
def put (w : Store K V) (d : Nat) (k : K) (a : Nat) : Except DErr (List V) × Store K V :=
  match w.dicts[d]? with
  | none => (.error .noSuch, w)
  | some o => (.ok [], w.setDict d { o with items := dset o.items k a })

/-- `l.append(x)` for the list l at a -/
def appendTo (w : Store K V) (a : Nat) (x : V) : Store K V := { w with lists := w.lists.set a (w.listAt a ++ [x]) }

/-- A call: the answer (the list that comes back, empty if None or a dictionary), and the store afterwards. A copy is
the last dictionary of the store. -/
def call (w : Store K V) : DCall K V → Except DErr (List V) × Store K V
  | .create => (.ok [], w.newDict ⟨[], true⟩)
  | .get d k => match w.get d k with
    | (.error e, w) => (.error e, w)
    | (.ok a, w) => (.ok (w.listAt a), w)
  | .append d k x => match w.get d k with
    | (.error e, w) => (.error e, w)
    | (.ok a, w) => (.ok [], w.appendTo a x)
  | .assign d k l => let r := w.newList l
    r.1.put d k r.2
  | .share d k e k' => match w.get e k' with
    | (.error x, w) => (.error x, w)
    | (.ok a, w) => w.put d k a
  | .pop d k => match w.dicts[d]? with
    | none => (.error .noSuch, w)
    | some o => match dget o.items k with
      | none => (.error .keyError, w)
      | some a => (.ok (w.listAt a), w.setDict d { o with items := o.items.filter (fun kv => decide (kv.1 ≠ k)) })
  -- `type(self)(self.default_factory, self)`; _collections.py:27-31
  | .copy d => match w.dicts[d]? with
    | none => (.error .noSuch, w)
    | some o => (.ok [], w.newDict ⟨o.items, o.factory⟩)
  | .deepcopy d => match w.dicts[d]? with
    | none => (.error .noSuch, w)
    | some o => let r := deepItems o.items w.lists
      (.ok [], { w with lists := r.2 }.newDict ⟨r.1, o.factory⟩)
  -- `type(self)` is called with `default_factory()` in the place of the factory, then the items are set; _collections.py:23-25
  | .pickle d => match w.dicts[d]? with
    | none => (.error .noSuch, w)
    | some o => if o.factory then
        let r := pickleItems o.items [] w.lists
        (.ok [], { w with lists := r.2 }.newDict ⟨r.1, false⟩)
      else (.error .typeError, w)

/-- calls one after another: all answers, and the store at the end -/
def run (w : Store K V) : List (DCall K V) → List (Except DErr (List V)) × Store K V
  | [] => ([], w)
  | c :: cs =>
    let r := w.call c
    let r' := r.2.run cs
    (r.1 :: r'.1, r'.2)

end Store

/-- At the start there is nothing -/
def Store.empty : Store K V := ⟨[], []⟩

/-! ## What can be seen -/

/-- `list(d.items())`, with the lists as they are now -/
def Store.view (w : Store K V) (d : Nat) : Option (List (K × List V)) :=
  (w.dicts[d]?).map (fun o => o.items.map (fun kv => (kv.1, w.listAt kv.2)))

/-- `d[k] is e[k']`, where both keys are there -/
def Store.Same (w : Store K V) (d : Nat) (k : K) (e : Nat) (k' : K) : Prop :=
  ∃ o o' a, w.dicts[d]? = some o ∧ w.dicts[e]? = some o' ∧ dget o.items k = some a ∧ dget o'.items k' = some a

/-- the dictionaries that a call names -/
def DCall.names : DCall K V → List Nat
  | .create => []
  | .get d _ => [d]
  | .append d _ _ => [d]
  | .assign d _ _ => [d]
  | .share d _ e _ => [d, e]
  | .pop d _ => [d]
  | .copy d => [d]
  | .deepcopy d => [d]
  | .pickle d => [d]

/-- A state of the store that calls lead to -/
def Reachable (w : Store K V) : Prop := ∃ cs, (Store.empty.run cs).2 = w

end
end Verif.Utils
