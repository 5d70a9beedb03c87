/-!
# XML processors

`XMLProcessor` (ecore/xmlprocessor.go) and `XMIProcessor` (ecore/xmiprocessor.go) with the resource sets they work on.

Resource sets and resources are numbered in the order of their creation. Simplifications: URIs are numbers and normalized, there are no packages with
resources; a document is what its objects are and the documents they refer to; documents are read and written without errors, unless there is none
(see C83 for the others); the options are left out: that of the extended metadata is the one the codecs have anyway (ecore/xmldecoder.go 105-107,
ecore/xmlencoder.go 94-96).
-/

namespace Verif.Processor

/-- a document: its objects, and the URIs of the documents they refer to -/
structure Doc where
  objects : Nat
  refs : List Nat := []
deriving DecidableEq, Repr

/-- a resource: URI, resource set, contents; `none`: it is not loaded -/
structure Res where
  uri : Nat
  set : Nat
  doc : Option Doc
deriving DecidableEq, Repr

/-- `given`: the resource set of `XMLProcessorResourceSet`; the number of resource sets; the resources, those of a set being in their order; what is
stored -/
structure St where
  given : Option Nat
  sets : Nat
  res : List Res
  files : Nat → Option Doc

/-- the URI `*.xml` (ecore/xmlprocessor.go 84; ecore/xmiprocessor.go 34 has another one) -/
def star : Nat := 0

/-- `NewXMLProcessor` (ecore/xmlprocessor.go 52-58), with a resource set or without -/
def new (withSet : Bool) (files : Nat → Option Doc) : St :=
  if withSet then ⟨some 0, 1, [], files⟩ else ⟨none, 0, [], files⟩

/-- `GetResourceSet` (ecore/xmlprocessor.go 60-65): without a resource set it creates one for each call -/
def getResourceSet (s : St) : St × Nat :=
  match s.given with
  | some g => (s, g)
  | none => ({ s with sets := s.sets + 1 }, s.sets)

/-- `CreateResource` (ecore/eresourceset_impl.go 119-124), whatever resources there are, and what it then gets -/
def create (s : St) (set uri : Nat) (doc : Option Doc) : St × Nat :=
  ({ s with res := s.res ++ [⟨uri, set, doc⟩] }, s.res.length)

/-- `Load`, `LoadWithOptions` (ecore/xmlprocessor.go 67-80) -/
def load (s : St) (uri : Nat) : St × Nat :=
  let (s, set) := getResourceSet s
  create s set uri (s.files uri)

/-- `LoadWithReader` (ecore/xmlprocessor.go 82-91) -/
def loadReader (s : St) (d : Doc) : St × Nat :=
  let (s, set) := getResourceSet s
  create s set star (some d)

/-- `SaveObject` (ecore/xmlprocessor.go 119-129): a copy of the object is put into a new resource and saved -/
def saveObject (s : St) (uri : Nat) (d : Doc) : St × Nat :=
  let (s, set) := getResourceSet s
  let (s, r) := create s set uri (some d)
  ({ s with files := fun u => if u = uri then some d else s.files u }, r)

/-- `Save` of a resource (ecore/xmlprocessor.go 93-103) -/
def save (s : St) (r : Nat) : St :=
  match s.res[r]? with
  | some x => match x.doc with
    | some d => { s with files := fun u => if u = x.uri then some d else s.files u }
    | none => { s with files := fun u => if u = x.uri then some ⟨0, []⟩ else s.files u }
  | none => s

/-- `GetResource(uri, true)` of a resource set (ecore/eresourceset_impl.go 68-117): the first resource with the URI, which is loaded if it is not, or a new
one -/
def getResource (s : St) (set uri : Nat) : St × Nat :=
  match s.res.findIdx? (fun x => x.set = set ∧ x.uri = uri) with
  | some i => match s.res[i]? with
    | some x => if x.doc.isNone then ({ s with res := s.res.set i { x with doc := s.files uri } }, i) else (s, i)
    | none => (s, i)
  | none => create s set uri (s.files uri)

/-- a reference of an object of resource `r` to an object of the document `uri` is resolved (ecore/ecoreutils.go 105-148): in the resource set of `r`;
the result is the resource that has the object -/
def resolve (s : St) (r uri : Nat) : St × Option Nat :=
  match s.res[r]? with
  | some x => let (s, i) := getResource s x.set uri; (s, some i)
  | none => (s, none)

/-- what users do -/
inductive Op where
  | getResourceSet
  | load (uri : Nat)
  | loadReader (d : Doc)
  | saveObject (uri : Nat) (d : Doc)
  | save (r : Nat)
  | resolve (r uri : Nat)
deriving DecidableEq, Repr

/-- what they get -/
inductive Result where
  | set (n : Nat)
  | res (r : Nat)
  | nothing
deriving DecidableEq, Repr

def step (s : St) : Op → St × Result
  | .getResourceSet => ((getResourceSet s).1, .set (getResourceSet s).2)
  | .load u => ((load s u).1, .res (load s u).2)
  | .loadReader d => ((loadReader s d).1, .res (loadReader s d).2)
  | .saveObject u d => ((saveObject s u d).1, .res (saveObject s u d).2)
  | .save r => (save s r, .nothing)
  | .resolve r u => ((resolve s r u).1, match (resolve s r u).2 with | some i => .res i | none => .nothing)

def run (s : St) : List Op → St
  | [] => s
  | op :: ops => run (step s op).1 ops

end Verif.Processor
