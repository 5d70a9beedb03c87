import Verif.Model.EList

/-!
# Resource sets and the resolution of proxies

`EResourceSetImpl` (ecore/eresourceset_impl.go), what `EResourceImpl` does for it (ecore/eresource_impl.go) and `Resolve…`
(ecore/ecoreutils.go 105-148).

Resource sets, resources and objects are numbered.  `U` are the URIs (pointers to them), `N` the texts of normalized URIs.
`none` is a panic or a call that never ends.

Simplifications: no notifications; the list of the resources changes as a sequence (see C02).
-/

namespace Verif.ResourceSet

/-- What is outside: `Normalize` of the URI converter (see C47), the resource of the package registered for a URI, and what
is stored: nothing that can be read (no reader, no codec), or a document whose decoder asks the resource set for other resources
(URI, loadOnDemand). -/
structure Env (U N : Type) where
  norm : U → N
  package : U → Option Nat
  doc : N → Option (List (U × Bool))

/-- Resource sets: `resources` and `uriResourceMap` (nil or not); resources: `resourceSet`, `uri`, `isLoaded`; the resources that exist are
those below `used`; `reads` are the documents that have been decoded, the last one first, with the resource. -/
structure World (U : Type) where
  lists : Nat → List Nat := fun _ => []
  maps : Nat → Option (List (U × Nat)) := fun _ => none
  owner : Nat → Option Nat := fun _ => none
  uri : Nat → Option U := fun _ => none
  loaded : Nat → Bool := fun _ => false
  used : Nat := 0
  reads : List Nat := []

variable {U N : Type}

/-- the list of a resource set is changed -/
def setList (w : World U) (s : Nat) (l : List Nat) : World U := { w with lists := fun t => if t = s then l else w.lists t }

/-- `BasicSetResourceSet` (ecore/eresource_impl.go 574-589); `RemoveWithNotification` (ecore/basicenotifyinglist.go 156-165) -/
def basicSetResourceSet (w : World U) (r : Nat) (s : Option Nat) : World U :=
  let w := match w.owner r with
    | some t => setList w t ((w.lists t).erase r)
    | none => w
  { w with owner := fun x => if x = r then s else w.owner x }

/-- `inverseAdd` for all (ecore/eresourceset_impl.go 26-31) -/
def inverseAdds (s : Nat) (w : World U) (rs : List Nat) : World U := rs.foldl (fun w r => basicSetResourceSet w r (some s)) w

/-- `inverseRemove` for all (ecore/eresourceset_impl.go 33-38) -/
def inverseRemoves (w : World U) (rs : List Nat) : World U := rs.foldl (fun w r => basicSetResourceSet w r none) w

/-- Calls on the list of the resources. -/
inductive LOp where
  | add (e : Nat)
  | addAll (c : List Nat)
  | insert (i : Nat) (e : Nat)
  | insertAll (i : Nat) (c : List Nat)
  | set (i : Nat) (e : Nat)
  | removeAt (i : Nat)
  | remove (e : Nat)
  | removeRange (i j : Nat)
  | removeAll (c : List Nat)
  | clear
  | move (i j : Nat)
deriving DecidableEq, Repr

/-- A call on `GetResources()` of a set (ecore/abstractelist.go 78-216, ecore/basicenotifyinglist.go 175-332): first the contents
of the list, then the inverse of each resource. -/
def listOp (w : World U) (s : Nat) (op : LOp) : Option (World U) :=
  let data := w.lists s
  match op with
  | .add e => some (if e ∈ data then w else inverseAdds s (setList w s (data ++ [e])) [e])
  | .addAll c =>
    let c' := EList.getNonDuplicates .snapshot data c
    some (inverseAdds s (setList w s (data ++ c')) c')
  | .insert i e =>
    if i > data.length then none
    else some (if e ∈ data then w else inverseAdds s (setList w s (data.take i ++ [e] ++ data.drop i)) [e])
  | .insertAll i c =>
    if i > data.length then none
    else
      let c' := EList.getNonDuplicates .snapshot data c
      some (inverseAdds s (setList w s (data.take i ++ c' ++ data.drop i)) c')
  | .set i e =>
    match data[i]? with
    | none => none
    | some old =>
      if e ∈ data ∧ data.idxOf e ≠ i then none
      else if e = old then some w
      else some (inverseAdds s (inverseRemoves (setList w s (data.set i e)) [old]) [e])
  | .removeAt i =>
    match data[i]? with
    | none => none
    | some old => some (inverseRemoves (setList w s (data.eraseIdx i)) [old])
  | .remove e => some (if e ∈ data then inverseRemoves (setList w s (data.erase e)) [e] else w)
  | .removeRange i j =>
    if i ≥ data.length ∨ j > data.length ∨ i > j then none
    else some (inverseRemoves (setList w s (data.take i ++ data.drop j)) ((data.take j).drop i))
  | .removeAll c => some (inverseRemoves (setList w s (data.filter (· ∉ c))) (data.filter (· ∈ c)))
  | .clear => some (inverseRemoves (setList w s []) data)
  | .move i j =>
    match data[i]? with
    | none => none
    | some e => if j < data.length then some (setList w s ((data.eraseIdx i).insertIdx j e)) else none

section
variable [DecidableEq U] [DecidableEq N]

/-- the loop over the resources (ecore/eresourceset_impl.go 92-104): the first one with the URI.  `Normalize` of a resource without
URI never ends (ecore/euriconverter_impl.go 43-49: `nil.Equals(nil)` is false, ecore/uri.go 424-426), or panics if there are mappings. -/
def search (env : Env U N) (w : World U) (n : N) : List Nat → Option (Option Nat)
  | [] => some none
  | r :: rs =>
    match w.uri r with
    | none => none
    | some u => if env.norm u = n then some (some r) else search env w n rs

/-- an entry of `uriResourceMap`, if there is one -/
def remember (w : World U) (s : Nat) (u : U) (r : Nat) : World U :=
  { w with maps := fun t => if t = s then (w.maps t).map ((u, r) :: ·) else w.maps t }

/-- calls of the decoder one after the other -/
def each {α β : Type} (h : α → β → Option α) : α → List β → Option α
  | a, [] => some a
  | a, x :: xs => (h a x).bind fun a => each h a xs

/-- `Load` (ecore/eresource_impl.go 419-470): `isLoaded` is set before the document is read.  `get` is `GetResource` of the resource
set of the resource. -/
def load (env : Env U N) (get : World U → Nat → U → Bool → Option (World U × Option Nat)) (w : World U) (r : Nat) : Option (World U) :=
  if w.loaded r then some w
  else
    match w.uri r with
    | none => some w
    | some u =>
      match env.doc (env.norm u) with
      | none => some w
      | some demands =>
        let w := { w with loaded := fun x => if x = r then true else w.loaded x, reads := r :: w.reads }
        match w.owner r with
        | none => some w
        | some s => each (fun w (d : U × Bool) => (get w s d.1 d.2).map (·.1)) w demands

/-- `CreateResource` (ecore/eresourceset_impl.go 121-126) -/
def createResource (w : World U) (s : Nat) (u : U) : World U × Nat :=
  let r := w.used
  let w := { w with uri := fun x => if x = r then some u else w.uri x, used := r + 1 }
  (inverseAdds s (setList w s (w.lists s ++ [r])) [r], r)

/-- `GetResource` (ecore/eresourceset_impl.go 71-119); `fuel` bounds the loads inside of loads -/
def getResource (env : Env U N) : Nat → World U → Nat → U → Bool → Option (World U × Option Nat)
  | 0, _, _, _, _ => none
  | fuel + 1, w, s, u, onDemand =>
    let loadIf (w : World U) (r : Nat) : Option (World U) := if onDemand then load env (getResource env fuel) w r else some w
    match ((w.maps s).getD []).lookup u with
    | some r => (loadIf w r).map fun w => (w, some r)
    | none =>
      match env.package u with
      | some r => some (remember w s u r, some r)
      | none =>
        match search env w (env.norm u) (w.lists s) with
        | none => none
        | some (some r) => (loadIf w r).map fun w => (remember w s u r, some r)
        | some none =>
          if onDemand then
            (loadIf (createResource w s u).1 (createResource w s u).2).map fun w' =>
              (remember w' s u (createResource w s u).2, some (createResource w s u).2)
          else some (w, none)

/-- The calls of a program: `NewEResourceImpl`, `SetURI`, `Unload`, `SetURIResourceMap` with an empty map, calls on the list of resources,
`CreateResource`, `GetResource`. -/
inductive Call (U : Type) where
  | new
  | setURI (r : Nat) (u : Option U)
  | unload (r : Nat)
  | useMap (s : Nat)
  | list (s : Nat) (op : LOp)
  | create (s : Nat) (u : U)
  | get (s : Nat) (u : U) (onDemand : Bool)
deriving DecidableEq, Repr

/-- the resources given to a call on a list -/
def LOp.given : LOp → List Nat
  | .add e | .insert _ e | .set _ e | .remove e => [e]
  | .addAll c | .insertAll _ c | .removeAll c => c
  | _ => []

/-- the resources given to a call -/
def Call.given : Call U → List Nat
  | .setURI r _ | .unload r => [r]
  | .list _ op => op.given
  | _ => []

/-- one call; a program can only use resources that exist -/
def step (env : Env U N) (fuel : Nat) (w : World U) (c : Call U) : Option (World U) :=
  if c.given.any (w.used ≤ ·) then none
  else match c with
  | .new => some { w with used := w.used + 1 }
  | .setURI r u => some { w with uri := fun x => if x = r then u else w.uri x }
  | .unload r => some { w with loaded := fun x => if x = r then false else w.loaded x }
  | .useMap s => some { w with maps := fun t => if t = s then some [] else w.maps t }
  | .list s op => listOp w s op
  | .create s u => some (createResource w s u).1
  | .get s u onDemand => (getResource env fuel w s u onDemand).map (·.1)

/-- calls one after the other -/
def run (env : Env U N) (fuel : Nat) (w : World U) (calls : List (Call U)) : Option (World U) := each (step env fuel) w calls

end

/-! ## Proxies -/

/-- The objects: `proxy` is `EProxyURI` (the URI without fragment and the fragment), `object` is what `GetEObject` of a resource finds for a
fragment (see C37), when it is loaded and when not.  Simplification: the trimmed URI is a new pointer in each call, here always the same one. -/
structure Objects (U F : Type) where
  proxy : Nat → Option (U × F)
  object : Nat → Bool → F → Option Nat

section
variable {F : Type} [DecidableEq U] [DecidableEq N]

/-- `GetEObject` (ecore/eresourceset_impl.go 128-135) -/
def getEObject (env : Env U N) (obs : Objects U F) (fuel : Nat) (w : World U) (s : Nat) (v : U × F) (onDemand : Bool) : Option (World U × Option Nat) :=
  (getResource env fuel w s v.1 onDemand).map fun p => (p.1, p.2.bind fun r => obs.object r (p.1.loaded r) v.2)

/-- `ResolveInResourceSet` (ecore/ecoreutils.go 126-148) with a resource set; `k` bounds the chain of proxies -/
def resolve (env : Env U N) (obs : Objects U F) (fuel : Nat) : Nat → World U → Nat → Nat → Option (World U × Nat)
  | 0, _, _, _ => none
  | k + 1, w, s, p =>
    match obs.proxy p with
    | none => some (w, p)
    | some v =>
      match getEObject env obs fuel w s v true with
      | none => none
      | some (w, none) => some (w, p)
      | some (w, some q) => if q = p then some (w, p) else resolve env obs fuel k w s q

end

end Verif.ResourceSet
