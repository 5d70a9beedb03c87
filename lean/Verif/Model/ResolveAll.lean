/-!
# Resolving all the references of a resource set

`ResolveAllInResourceSet` and `ResolveAllInResource` (ecore/ecoreutils.go 207-233) on a resource set whose resources are loaded on demand.

Resources are known by the number of their URI.  Simplified: a document is the list of its objects in the order in which `ResolveAll` visits them (each root, then its `EAllContents`; the iterator
is that of `Tree`), an object is the list of its cross references (`ECrossReferences`, all features one after the other; see `EContents`); no containment references between documents,
no URI map and no packages (see `ResourceSet`); resources are created for URIs that are not yet in the set; loading a document does not load others.
-/

namespace Verif.ResolveAll

/-- What can be read: for the URI of a document its objects, and for each of them the references, as URI and position of the object in the document.  `none` is a document that cannot be read. -/
abbrev Docs := Nat → Option (List (List (Nat × Nat)))

/-- A reference in memory: a proxy with its URI, or an object; objects are numbered by the loading that made them and their position. -/
inductive Val where
  | proxy (d i : Nat)
  | obj (g i : Nat)
deriving DecidableEq, Repr

/-- the list of the resources (ecore/eresourceset_impl.go 61-67), what is loaded in each and by which loading, the references of the objects, the number of the next loading -/
structure World where
  resources : List Nat
  live : Nat → Option Nat
  refs : Nat → Nat → List Val
  next : Nat

def init : World := ⟨[], fun _ => none, fun _ _ => [], 0⟩

/-- the reference that the decoder makes: objects of the same document are found, others get proxies (ecore/xmldecoder.go `handleForwardReferences`, ecore/binarydecoder.go) -/
def decoded (d n g : Nat) (r : Nat × Nat) : Val := if r.1 = d ∧ r.2 < n then .obj g r.2 else .proxy r.1 r.2

/-- `Load`: ecore/eresource_impl.go 419-468 -/
def load (env : Docs) (w : World) (d : Nat) : World :=
  match w.live d with
  | some _ => w
  | none =>
    match env d with
    | none => w
    | some objs =>
      { w with
        live := fun x => if x = d then some w.next else w.live x
        refs := fun g i => if g = w.next then ((objs[i]?).getD []).map (decoded d objs.length w.next) else w.refs g i
        next := w.next + 1 }

/-- `GetResource` on demand: ecore/eresourceset_impl.go 69-118 -/
def getResource (env : Docs) (w : World) (d : Nat) : World :=
  if d ∈ w.resources then load env w d
  else load env { w with resources := w.resources ++ [d] } d

/-- the number of the objects of a document -/
def size (env : Docs) (d : Nat) : Nat := match env d with
  | some objs => objs.length
  | none => 0

/-- `GetEObject` of the resource: ecore/eresourceset_impl.go 127-134 -/
def objectAt (env : Docs) (w : World) (d i : Nat) : Option (Nat × Nat) :=
  match w.live d with
  | some g => if i < size env d then some (g, i) else none
  | none => none

def setRef (w : World) (g i k : Nat) (v : Val) : World :=
  { w with refs := fun g' i' => if g' = g ∧ i' = i then (w.refs g i).set k v else w.refs g' i' }

/-- Reading a position of a reference list: a proxy is resolved, and replaced when there is an object (ecore/basiceobjectlist.go 82-112, ecore/ecoreutils.go 126-147). -/
def resolveAt (env : Docs) (w : World) (g i k : Nat) : World :=
  match (w.refs g i)[k]? with
  | some (.proxy d j) =>
    match objectAt env (getResource env w d) d j with
    | some (g', j') => setRef (getResource env w d) g i k (.obj g' j')
    | none => getResource env w d
  | _ => w

/-- `resolveCrossReferences`: ecore/ecoreutils.go 229-233 -/
def resolveObject (env : Docs) (w : World) (g i : Nat) : World :=
  (List.range (w.refs g i).length).foldl (fun w k => resolveAt env w g i k) w

/-- `ResolveAllInResource`: ecore/ecoreutils.go 214-227 -/
def resolveResource (env : Docs) (w : World) (d : Nat) : World :=
  match w.live d with
  | some g => (List.range (size env d)).foldl (fun w i => resolveObject env w g i) w
  | none => w

/-- The loop of `ResolveAllInResourceSet` (ecore/ecoreutils.go 207-212) from a position on; the iterator asks for the size of the list each time (ecore/elistiterator.go 18-31).  `none`: it does not
end with this fuel. -/
def resolveFrom (env : Docs) : Nat → World → Nat → Option World
  | 0, _, _ => none
  | fuel + 1, w, cursor =>
    match w.resources[cursor]? with
    | some d => resolveFrom env fuel (resolveResource env w d) (cursor + 1)
    | none => some w

inductive Op where
  | create (d : Nat)
  | get (d : Nat)
  | load (d : Nat)
  | unload (d : Nat)
  | resolve (d : Nat)
  | resolveAll
deriving DecidableEq, Repr

/-- One call.  `create`: ecore/eresourceset_impl.go 120-125; `unload`: ecore/eresource_impl.go 474-491: the contents are given up, the objects stay as they are. -/
def step (env : Docs) (fuel : Nat) (w : World) : Op → Option World
  | .create d => some (if d ∈ w.resources then w else { w with resources := w.resources ++ [d] })
  | .get d => some (getResource env w d)
  | .load d => some (if d ∈ w.resources then load env w d else w)
  | .unload d => some { w with live := fun x => if x = d then none else w.live x }
  | .resolve d => some (if d ∈ w.resources then resolveResource env w d else w)
  | .resolveAll => resolveFrom env fuel w 0

def run (env : Docs) (fuel : Nat) (w : World) : List Op → Option World
  | [] => some w
  | op :: ops => match step env fuel w op with
    | some w' => run env fuel w' ops
    | none => none

/-- the objects of a resource -/
def objects (env : Docs) (w : World) (d : Nat) : List (Nat × Nat) :=
  match w.live d with
  | some g => (List.range (size env d)).map fun i => (g, i)
  | none => []

end Verif.ResolveAll
