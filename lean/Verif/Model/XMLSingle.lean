/-!
# One object in an XML document

`EncodeObject` and `DecodeObject` of the XML codec (ecore/xmlencoder.go 122-130, ecore/xmldecoder.go 129-142): the references of the objects of the tree that is
written, and what they are when it is read again, in the same resource or another one.

Simplifications: references are many valued, with unique elements and without opposite (C80 has these), to objects of the resource of the encoder or of none;
attributes and containment are not here (C43, C60): the objects are those of the tree, in the order of their elements. IDs are in the ID manager of the resource
only, and are numbers; what a path leads to is a parameter (C26); objects are numbered, new objects have the next number. A panic is `none`.
-/

namespace Verif.XMLSingle

/-- the objects of the ID manager (ecore/uniqueidmanager.go 13-22) -/
structure Manager where
  idOf : Nat → Option Nat
  objOf : Nat → Option Nat

/-- A resource: its contents; the objects in it, at any depth; their paths; what a path leads to; its ID manager. -/
structure Res where
  contents : List Nat
  attached : Nat → Bool
  pathOf : Nat → Nat
  atPath : Nat → Option Nat
  manager : Option Manager

/-- a fragment: an ID, a path, or the path of the position -1, which leads nowhere -/
inductive Frag where
  | id (i : Nat)
  | path (p : Nat)
  | outside
deriving DecidableEq, Repr

/-- `GetURIFragment` (ecore/eresource_impl.go 253-292) -/
def fragment (r : Res) (o : Nat) : Frag :=
  if r.attached o then
    match r.manager with
    | some m => match m.idOf o with
      | some i => .id i
      | none => .path (r.pathOf o)
    | none => .path (r.pathOf o)
  else .outside

/-- `GetEObject` (ecore/eresource_impl.go 236-251, 311-352) -/
def getEObject (r : Res) : Frag → Option Nat
  | .id i => match r.manager with
    | some m => m.objOf i
    | none => none
  | .path p => r.atPath p
  | .outside => none

/-- an element: the ID attribute, and the attributes that are references -/
structure Elem where
  id : Option Nat
  refs : List (Nat × List Frag)
deriving DecidableEq, Repr

/-- the element of an object: `saveElementID` (ecore/xmlencoder.go 220-226) if the name of the ID attribute is given, `saveFeatures` with `saveIDRefMany` (228-362,
522-548) -/
def encodeElem (ids : Bool) (r : Res) (refs : Nat → Nat → List Nat) (features : Nat → List Nat) (o : Nat) : Elem where
  id := if ids then match r.manager with
    | some m => m.idOf o
    | none => none
    else none
  refs := (features o).filterMap fun f => if (refs o f).isEmpty then none else some (f, (refs o f).map (fragment r))

/-- `EncodeObject` (ecore/xmlencoder.go 122-130) for the objects of a tree -/
def encode (ids : Bool) (r : Res) (refs : Nat → Nat → List Nat) (features : Nat → List Nat) (objs : List Nat) : List Elem :=
  objs.map (encodeElem ids r refs features)

/-- the options `XML_OPTION_ID_ATTRIBUTE_NAME`, `XML_OPTION_DEFERRED_REFERENCE_RESOLUTION` and `XML_OPTION_DEFERRED_ROOT_ATTACHMENT` (ecore/xmldecoder.go
94-104), and what the paths lead to if the object is added to the contents -/
structure Env where
  ids : Bool
  deferred : Bool
  deferredRoot : Bool
  after : Nat → Option Nat

/-- `xmlReference` (ecore/xmldecoder.go 45-50) -/
structure Pending where
  obj : Nat
  feature : Nat
  frag : Frag
  pos : Nat
deriving DecidableEq, Repr

/-- the decoder: its resource, the references of all objects, `references`, the number of errors, `deferred`, and the result -/
structure State where
  res : Res
  refs : Nat → Nat → List Nat
  next : Nat
  pending : List Pending
  errors : Nat
  roots : List Nat
  result : Option Nat

/-- `Add` of a list with unique elements (ecore/abstractelist.go 80-91) -/
def add (l : List Nat) (x : Nat) : List Nat := if x ∈ l then l else l ++ [x]

/-- `SetID` of the ID manager (ecore/uniqueidmanager.go 44-56, 88-96), for an ID it takes -/
def setID (m : Manager) (o i : Nat) : Manager :=
  let objOf := match m.idOf o with
    | some j => fun k => if k = j then none else m.objOf k
    | none => m.objOf
  ⟨fun x => if x = o then some i else m.idOf x, fun k => if k = i then some o else objOf k⟩

/-- the loop of `setValueFromId` (ecore/xmldecoder.go 590-648) with the position; gives the list and the new `references` -/
def setIds (deferred : Bool) (get : Frag → Option Nat) (o f : Nat) : List Nat → Nat → List Frag → List Nat × List Pending
  | l, _, [] => (l, [])
  | l, pos, x :: xs =>
    match (if deferred then none else get x) with
    | some y => setIds deferred get o f (add l y) (pos + 1) xs
    | none =>
      let (l', ps) := setIds deferred get o f l (pos + 1) xs
      (l', ⟨o, f, x, pos⟩ :: ps)

def setRefs (refs : Nat → Nat → List Nat) (o f : Nat) (l : List Nat) : Nat → Nat → List Nat :=
  fun x g => if x = o ∧ g = f then l else refs x g

/-- the references of an element (`handleAttributes`, ecore/xmldecoder.go 517-537) -/
def setAttrs (deferred : Bool) (get : Frag → Option Nat) (o : Nat) : (Nat → Nat → List Nat) → List (Nat × List Frag) → (Nat → Nat → List Nat) × List Pending
  | refs, [] => (refs, [])
  | refs, (f, xs) :: as =>
    let (l, ps) := setIds deferred get o f (refs o f) 0 xs
    let (refs', ps') := setAttrs deferred get o (setRefs refs o f l) as
    (refs', ps ++ ps')

/-- the ID attribute (ecore/xmldecoder.go 523-529), which is the first one -/
def readID (ids : Bool) (r : Res) (o : Nat) (id : Option Nat) : Res :=
  if ids then
    match id, r.manager with
    | some i, some m => { r with manager := some (setID m o i) }
    | _, _ => r
  else r

/-- `startElement` (ecore/xmldecoder.go 170-179): an object is created, its attributes are read -/
def readElem (E : Env) (s : State) (e : Elem) : State :=
  let res := readID E.ids s.res s.next e.id
  let (refs, ps) := setAttrs E.deferred (getEObject res) s.next s.refs e.refs
  { s with res := res, refs := refs, next := s.next + 1, pending := s.pending ++ ps }

/-- `processElement` of the first element (ecore/xmldecoder.go 295-305), with the `attachFn` of `DecodeObject` (130-134) -/
def readRoot (E : Env) (s : State) (e : Elem) : State :=
  let s' := readElem E s e
  if E.deferredRoot then { s' with roots := s'.roots ++ [s.next] } else { s' with result := some s.next }

/-- `setFeatureValue` with a position (ecore/xmldecoder.go 480-497, `xlfkManyAdd`): an object that refers to itself is inserted there -/
def setAt (l : List Nat) (o x pos : Nat) : Option (List Nat) :=
  if o = x then
    if x ∈ l then if pos < l.length then some ((l.erase x).insertIdx pos x) else none
    else if pos ≤ l.length then some (l.insertIdx pos x) else none
  else some (add l x)

/-- the loop over `references` (ecore/xmldecoder.go 737-747) -/
def setPending (get : Frag → Option Nat) : (Nat → Nat → List Nat) → Nat → List Pending → Option ((Nat → Nat → List Nat) × Nat)
  | refs, n, [] => some (refs, n)
  | refs, n, p :: ps =>
    match get p.frag with
    | some y => match setAt (refs p.obj p.feature) p.obj y p.pos with
      | some l => setPending get (setRefs refs p.obj p.feature l) n ps
      | none => none
    | none => setPending get refs (n + 1) ps

/-- the end of the document (`endElement`, ecore/xmldecoder.go 215-222). Simplified: the ID manager gives no ID to an object that is added to the contents. -/
def finish (E : Env) (s : State) : Option State :=
  let res := match s.roots with
    | [] => s.res
    | l => { s.res with contents := s.res.contents ++ l, atPath := E.after }
  match setPending (getEObject res) s.refs s.errors s.pending with
  | some (refs, n) => some { s with res := res, refs := refs, errors := n, pending := [] }
  | none => none

/-- `DecodeObject` (ecore/xmldecoder.go 129-168) with the resource `r`. Its result is `result`, its error is not nil if there are `errors`. -/
def decode (E : Env) (r : Res) (refs : Nat → Nat → List Nat) (next : Nat) : List Elem → Option State
  | [] => some ⟨r, refs, next, [], 0, [], none⟩
  | e :: es => finish E (es.foldl (readElem E) (readRoot E ⟨r, refs, next, [], 0, [], none⟩ e))

end Verif.XMLSingle
