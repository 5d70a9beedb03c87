import Verif.Model.Graph

/-!
# References in XML documents

How the decoder of XML and XMI documents sets references, in particular those that have an opposite: while the elements are
read (`setValueFromId`, `setFeatureValue`) and at the end of the document (`handleReferences`), ecore/xmldecoder.go.  The
objects are the dynamic objects of `Verif.Model.Graph`: setting a reference sets its opposite.

Left out: attributes, types, prefixes and texts (C43, C60); IDs are the objects they stand for.  Objects are numbered, and the
number of a new object is given by the document.
-/

namespace Verif.XMLRefs

open Graph

/-- The metamodel, `IsTransient` and `IsChangeable` of its references, whether the objects have IDs (`xmi:id`, the first
attribute that is written, ecore/xmlencoder.go 464-473) and the option `XML_OPTION_DEFERRED_REFERENCE_RESOLUTION`
(ecore/xmldecoder.go 96). -/
structure Env where
  M : Meta
  transient : Nat → Bool
  changeable : Nat → Bool
  ids : Bool
  deferred : Bool

/-- An element: the object that is created for it; the object and the feature of the element around it, if any; the
attributes that are references, with the objects of their IDs (`#...`); for an element with `href`, the object of the
same document it stands for, if any. -/
structure Elem where
  obj : Nat
  place : Option (Nat × Nat)
  attrs : List (Nat × List Nat)
  proxy : Option (Option Nat) := none
deriving DecidableEq, Repr

/-- `xmlReference` (ecore/xmldecoder.go 45-50) -/
structure Pending where
  obj : Nat
  feature : Nat
  id : Nat
  pos : Nat
deriving DecidableEq, Repr

/-- The decoder: the objects, those that `GetEObject` of the resource finds, `references`, `sameDocumentProxies` with the
fragment of their URIs, and the number of errors. -/
structure State where
  w : World
  known : List Nat
  refs : List Pending
  same : List (Nat × Nat)
  errors : Nat

/-- `getLoadFeatureKind` is `xlfkManyAdd` (ecore/xmldecoder.go 499-515), for a many valued reference -/
def manyAdd (E : Env) (f : Nat) : Bool :=
  match (E.M.refs f).opposite with
  | none => true
  | some g => E.transient g || !(E.M.refs g).many

/-- `setFeatureValue` (ecore/xmldecoder.go 470-497) of a reference with an object; `pos` is `none` for -1.  In line 484 the
position and the index are given to `Move` the other way round.  `MoveObject` (ecore/abstractelist.go 125-132) past the end
is a panic here (see C03). -/
def setValue (E : Env) (w : World) (o f x : Nat) (pos : Option Nat) : Option World :=
  if (E.M.refs f).many then
    match pos with
    | none => listOp E.M w o f (.add x)
    | some p =>
      if o = x then
        if x ∈ eGet E.M w o f then listOp E.M w o f (.move p ((eGet E.M w o f).idxOf x))
        else listOp E.M w o f (.insert p x)
      else if manyAdd E f then listOp E.M w o f (.add x)
      else if x ∈ eGet E.M w o f then listOp E.M w o f (.move ((eGet E.M w o f).idxOf x) p)
      else none
  else eSet E.M w o f (some x)

/-- `mustAdd` (ecore/xmldecoder.go 584, 618-629) -/
def mustAdd (E : Env) (f : Nat) : Bool :=
  E.deferred ||
  match (E.M.refs f).opposite with
  | some g => E.transient g || (E.M.refs f).many
  | none => true

/-- `mustAddOrNotOppositeIsMany` (ecore/xmldecoder.go 585, 618-629) -/
def mayResolve (E : Env) (f : Nat) : Bool :=
  !E.deferred &&
  match (E.M.refs f).opposite with
  | some g => mustAdd E f || !(E.M.refs g).many
  | none => true

/-- the loop of `setValueFromId` (ecore/xmldecoder.go 590-648) for IDs of the same document: position, references -/
def setIds (E : Env) (o f : Nat) (known : List Nat) : World → Nat → List Pending → List Nat → Option (World × List Pending)
  | w, _, refs, [] => some (w, refs)
  | w, pos, refs, x :: xs =>
    if mayResolve E f ∧ x ∈ known then
      match setValue E w o f x none with
      | none => none
      | some w => setIds E o f known w (pos + 1) refs xs
    else setIds E o f known w (pos + 1) (if mustAdd E f then refs ++ [⟨o, f, x, pos⟩] else refs) xs

/-- the attributes of an element (`handleAttributes`, `setAttributeValue`, ecore/xmldecoder.go 517-536, 562-581, and the end of
`setValueFromId`, 650-654; an attribute has one ID at least) -/
def setAttrs (E : Env) (o : Nat) (known : List Nat) : World → List Pending → List (Nat × List Nat) → Option (World × List Pending)
  | w, refs, [] => some (w, refs)
  | w, refs, (f, xs) :: as =>
    match setIds E o f known w 0 [] xs with
    | none => none
    | some (w, new) => setAttrs E o known w (refs ++ new) as

/-- the new object is put in its place (ecore/xmldecoder.go 330-332, 387-389, 411-413) -/
def putPlace (E : Env) (w : World) (x : Nat) : Option (Nat × Nat) → Option World
  | none => some w
  | some (a, r) => setValue E w a r x none

/-- `startElement` (ecore/xmldecoder.go 170-179): the object is created (`createTopObject`, `createObjectFromFeatureType`,
`createObjectFromTypeName`, 325-415), its attributes are read (364-376), then it is put in its place.  From then on the resource
finds it by its path; an object with an ID is found as soon as the ID is read.  A proxy of the same document is remembered
(`handleProxy`, 657-674); proxies are not found. -/
def readElem (E : Env) (s : State) (e : Elem) : Option State :=
  match setAttrs E e.obj (if E.ids && e.proxy.isNone then e.obj :: s.known else s.known) s.w s.refs e.attrs with
  | none => none
  | some (w, refs) =>
    match putPlace E w e.obj e.place with
    | none => none
    | some w =>
      some { s with
        w := w, refs := refs, known := if e.proxy.isNone then e.obj :: s.known else s.known
        same := match e.proxy with | some (some x) => s.same ++ [(e.obj, x)] | _ => s.same }

/-- the elements of a document in the order of their start tags -/
def readElems (E : Env) : State → List Elem → Option State
  | s, [] => some s
  | s, e :: es =>
    match readElem E s e with
    | none => none
    | some s => readElems E s es

/-- `EIsSet` (ecore/abstracteobject.go 502-538, ecore/dynamiceobject_impl.go 72-74): an empty list that was created is set -/
def isSet (M : Meta) (w : World) (o f : Nat) : Bool :=
  if M.isContainer f then (eGet M w o f).length > 0
  else (w o).slots (M.featureID (w o).cls f).toNat ≠ .none

/-- `Remove(n)` with a number (ecore/xmldecoder.go 701, 703): a list of objects has no numbers, so that `IndexOf` is -1
(ecore/abstractelist.go 154-162) and nothing is removed -/
def removeNumber (w : World) : World := w

/-- the part of the loop over the proxies of the same document that comes after `proxyHolder` is found
(ecore/xmldecoder.go 694-733): proxy, object, reference, opposite, holder; `none` is a panic.  `value.(EObject)` of nil is
a panic (715); so are an index of -1 (699, 726) and a `Set` that is refused. -/
def replaceProxy (E : Env) (w : World) (p x f g h : Nat) : Option World :=
  if (E.M.refs g).many ∧ x ∈ eGet E.M w h g then
    if p ∈ eGet E.M w h g then
      (listOp E.M w h g (.move ((eGet E.M w h g).idxOf p) ((eGet E.M w h g).idxOf x))).map removeNumber
    else none
  else
    match (if (E.M.refs f).many then some (decide (h ∉ eGet E.M w x f)) else ((eGet E.M w x f).head?).map fun y => decide (y ≠ h)) with
    | none => none
    | some false => some w
    | some true =>
      if (E.M.refs g).many then
        if p ∈ eGet E.M w h g then listOp E.M w h g (.set ((eGet E.M w h g).idxOf p) x) else none
      else eSet E.M w h g (some x)

/-- the loop over the references of a proxy of the same document (ecore/xmldecoder.go 678-736).  Every reference of this model
is in `GetEAllReferences`. -/
def sameRefs (E : Env) (known : List Nat) (p x : Nat) : World → List Nat → Option World
  | w, [] => some w
  | w, f :: fs =>
    match (E.M.refs f).opposite with
    | none => sameRefs E known p x w fs
    | some g =>
      if E.changeable g ∧ isSet E.M w p f ∧ x ∈ known then
        match (eGet E.M w p f).head? with
        | none => none
        | some h => replaceProxy E w p x f g h
      else sameRefs E known p x w fs

/-- the loop over `sameDocumentProxies` (ecore/xmldecoder.go 677-737) -/
def sameProxies (E : Env) (cls : Nat → Nat) (known : List Nat) : World → List (Nat × Nat) → Option World
  | w, [] => some w
  | w, (p, x) :: ps =>
    match sameRefs E known p x w (E.M.features (cls p)) with
    | none => none
    | some w => sameProxies E cls known w ps

/-- the loop over `references` (ecore/xmldecoder.go 739-747): what cannot be found is an error -/
def setPending (E : Env) (known : List Nat) : World → Nat → List Pending → Option (World × Nat)
  | w, n, [] => some (w, n)
  | w, n, p :: ps =>
    if p.id ∈ known then
      match setValue E w p.obj p.feature p.id (some p.pos) with
      | none => none
      | some w => setPending E known w n ps
    else setPending E known w (n + 1) ps

/-- `decodeTopObject` (ecore/xmldecoder.go 144-168) with `handleReferences` (676-748) at the end of the document; `none` is
a panic -/
def load (E : Env) (cls : Nat → Nat) (doc : List Elem) : Option State :=
  match readElems E ⟨init cls, [], [], [], 0⟩ doc with
  | none => none
  | some s =>
    match sameProxies E cls s.known s.w s.same with
    | none => none
    | some w =>
      match setPending E s.known w s.errors s.refs with
      | none => none
      | some (w, n) => some { s with w := w, errors := n }

/-- The references of an object that are written as attributes (`saveFeatures`, `getSaveFeatureKind`, `saveIDRefSingle`,
`saveIDRefMany`, ecore/xmlencoder.go 228-362, 512-548, 562-618), all values being objects of the document: neither transient, nor
containment, nor container; not empty. -/
def attributes (E : Env) (cls : Nat → Nat) (saved : Nat → Nat → List Nat) (o : Nat) : List (Nat × List Nat) :=
  (E.M.features (cls o)).filterMap fun r =>
    if E.transient r || (E.M.refs r).containment || E.M.isContainer r || (saved o r).isEmpty then none else some (r, saved o r)

end Verif.XMLRefs
