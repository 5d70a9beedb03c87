/-!
# XML documents with document roots and extended names

`XMLEncoder` and `XMLDecoder` (ecore/xmlencoder.go, ecore/xmldecoder.go) without the conventions of
XMI: the root element is named after a feature of the document root class of a package, features and
classes are named by extended meta data.

Modelled: objects with data and contained objects.  Not modelled here: references and proxies,
`nil` values, identifiers, the prefix map of a document root, the text of the document (see
`XMLCodec`): prefixes (all packages have one, and it is declared), escapes and white space.
-/

namespace Verif.XMLRoot

/-- A feature: its name, its extended name and namespace (`GetName` and `GetNamespace` of
ecore/extendedmetadata.go 133-139), whether it is an attribute or a containment reference, whether
it holds many values, whether it is changeable, the class that is its type (for references). -/
structure Feature where
  name : String
  ext : String
  space : String
  data : Bool
  many : Bool
  changeable : Bool
  type : Nat
deriving DecidableEq, Repr

/-- A class: its package, its extended name, its super types, all its features
(`GetEAllStructuralFeatures`), of which the first `inherited` are those of super types. -/
structure Class where
  package : Nat
  ext : String
  abstract : Bool
  supers : List Nat
  inherited : Nat
  features : List Feature
deriving DecidableEq, Repr

/-- The metamodel: classes are numbers, those of a package are in the order of their numbers.
`uris` are the namespace URIs of the registered packages.  `any` is the class `EObject`. -/
structure Meta where
  classes : List Class
  uris : List String
  any : Nat
deriving DecidableEq, Repr

mutual
/-- A list of objects: each has a class and values. -/
inductive Objs where
  | nil
  | cons (cls : Nat) (vals : Vals) (rest : Objs)
deriving DecidableEq, Repr
/-- The values of an object, one for each feature of its class: texts for an attribute, objects for
a containment reference.  A single-valued feature has no value or one value. -/
inductive Vals where
  | nil
  | texts (l : List String) (rest : Vals)
  | kids (l : Objs) (rest : Vals)
deriving DecidableEq, Repr
end

/-- A name of a document: namespace and local name. -/
structure Name where
  space : String
  loc : String
deriving DecidableEq, Repr

/-- What a parser makes of a document: `xml.StartElement` (with the value of `xsi:type`, of which
the prefix is replaced by its namespace), `xml.CharData`, `xml.EndElement`. -/
inductive Token where
  | start (name : Name) (type : Option Name) (attrs : List (Name × String))
  | chars (s : String)
  | stop
deriving DecidableEq, Repr

/-- `GetType` (ecore/extendedmetadata.go 47-69, 129-131) of new extended meta data: the first class
of the package with the name.  Classes `0, 1, …` are looked at from `i`. -/
def getTypeFrom (package : Nat) (name : String) : List Class → Nat → Option Nat
  | [], _ => none
  | c :: cs, i =>
    if c.package = package ∧ c.ext = name then some i else getTypeFrom package name cs (i + 1)

def getType (m : Meta) (package : Nat) (name : String) : Option Nat :=
  getTypeFrom package name m.classes 0

/-- `GetDocumentRoot` (ecore/extendedmetadata.go 141-147) -/
def documentRoot (m : Meta) (package : Nat) : Option Nat := getType m package ""

/-- `GetPackage` and `GetFactory` of the package registry, by URI -/
def packageOf (m : Meta) (uri : String) : Option Nat := m.uris.findIdx? (· == uri)

/-! ## Saving -/

/-- `getFeatureQName` (ecore/xmlencoder.go 668-692): the namespace is that of a registered package
or there is none. -/
def featureName (m : Meta) (f : Feature) : Name :=
  ⟨if (packageOf m f.space).isSome then f.space else "", f.ext⟩

/-- `getClassQName` (ecore/xmlencoder.go 664-666); not for a class without extended name, which is written as the prefix alone -/
def className (m : Meta) (c : Class) : Name := ⟨m.uris.getD c.package "", c.ext⟩

/-- The attributes that `saveFeatures` writes: `saveDataTypeSingle` (ecore/xmlencoder.go 228-256,
364-370). -/
def attrsOf (m : Meta) : List Feature → Vals → List (Name × String)
  | f :: fs, .texts l rest =>
    if f.many then attrsOf m fs rest else l.map (fun t => (featureName m f, t)) ++ attrsOf m fs rest
  | _ :: fs, .kids _ rest => attrsOf m fs rest
  | _, _ => []

/-- `addContent` (ecore/xmlstring.go 163-179) for each text of `saveDataTypeMany` (ecore/xmlencoder.go
372-391) -/
def leaves (n : Name) : List String → List Token
  | [] => []
  | t :: ts => .start n none [] :: .chars t :: .stop :: leaves n ts

mutual
/-- The elements that `saveFeatures` writes: ecore/xmlencoder.go 325-362. -/
def elemsOf (m : Meta) : List Feature → Vals → List Token
  | f :: fs, .texts l rest => (if f.many then leaves (featureName m f) l else []) ++ elemsOf m fs rest
  | f :: fs, .kids l rest => nodesOf m f l ++ elemsOf m fs rest
  | _, _ => []
/-- `saveContainedSingle`, `saveContainedMany`, `saveEObject` (ecore/xmlencoder.go 439-479) -/
def nodesOf (m : Meta) (f : Feature) : Objs → List Token
  | .nil => []
  | .cons c vs rest =>
    match m.classes[c]? with
    | some cl =>
      .start (featureName m f) (if f.type ≠ c ∧ f.type ≠ m.any then some (className m cl) else none) (attrsOf m cl.features vs) ::
        (elemsOf m cl.features vs ++ .stop :: nodesOf m f rest)
    | none => nodesOf m f rest
end

/-- The search of `getRootFeature` in the features of a document root (ecore/xmlencoder.go 182-189) -/
def rootFeatureIn (m : Meta) (package : Nat) (cls : Nat) : Option Feature :=
  match documentRoot m package with
  | some r =>
    match m.classes[r]? with
    | some rc => (rc.features.drop rc.inherited).find? (fun f => !f.data && f.type == cls && f.changeable)
    | none => none
  | none => none

/-- `getRootFeature` (ecore/xmlencoder.go 179-203): the class, then its first super type and so on.
The search ends with the first super types: `fuel` is more than their number. -/
def rootFeature (m : Meta) : Nat → Nat → Option Feature
  | 0, _ => none
  | fuel + 1, cls =>
    match m.classes[cls]? with
    | some cl =>
      match rootFeatureIn m cl.package cls with
      | some f => some f
      | none =>
        match cl.supers with
        | s :: _ => rootFeature m fuel s
        | [] => none
    | none => none

/-- `saveTopObject` (ecore/xmlencoder.go 161-177).  The element of a document root has no name: its
attributes are written outside of any element, and so is the end of an empty element
(`startElement`, `endEmptyElement` and `addAttribute`, ecore/xmlstring.go 62-77, 100-105, 117-140). -/
def encode (m : Meta) (cls : Nat) (vs : Vals) : List Token :=
  match m.classes[cls]? with
  | some cl =>
    if documentRoot m cl.package ≠ some cls then
      let name := match rootFeature m m.classes.length cls with
        | some f => featureName m f
        | none => className m cl
      .start name none (attrsOf m cl.features vs) :: (elemsOf m cl.features vs ++ [.stop])
    else
      (attrsOf m cl.features vs).map (fun a => .chars (" " ++ a.1.loc ++ "=\"" ++ a.2 ++ "\"")) ++
        (if elemsOf m cl.features vs = [] then [.chars "/>"] else elemsOf m cl.features vs)
  | none => []

/-! ## Loading -/

/-- The values of a new object. -/
def fresh : List Feature → Vals
  | [] => .nil
  | f :: fs => if f.data then .texts [] (fresh fs) else .kids .nil (fresh fs)

/-- One more object at the end of a list. -/
def Objs.snoc : Objs → Nat → Vals → Objs
  | .nil, c, vs => .cons c vs .nil
  | .cons c' vs' rest, c, vs => .cons c' vs' (rest.snoc c vs)

/-- `setFeatureValue` with a text (ecore/xmldecoder.go 447-475): a single value is replaced. -/
def Vals.addText : Vals → Nat → Bool → String → Vals
  | .texts l rest, 0, many, t => .texts (if many then l ++ [t] else [t]) rest
  | .texts l rest, i + 1, many, t => .texts l (rest.addText i many t)
  | .kids l rest, i + 1, many, t => .kids l (rest.addText i many t)
  | vs, _, _, _ => vs

/-- `setFeatureValue` with an object (ecore/xmldecoder.go 476-497): a single value is replaced. -/
def Vals.addKid : Vals → Nat → Bool → Nat → Vals → Vals
  | .kids l rest, 0, many, c, vs => .kids (if many then l.snoc c vs else .cons c vs .nil) rest
  | .texts l rest, i + 1, many, c, vs => .texts l (rest.addKid i many c vs)
  | .kids l rest, i + 1, many, c, vs => .kids l (rest.addKid i many c vs)
  | vals, _, _, _, _ => vals

/-- `getFeature` (ecore/xmldecoder.go 760-773): by name, then by extended name; the namespace is not
looked at. -/
def getFeature (fs : List Feature) (loc : String) : Option Nat :=
  match fs.findIdx? (·.name == loc) with
  | some i => some i
  | none => fs.findIdx? (·.ext == loc)

/-- An object of the stack of objects: its class, its values, and the feature of the object below
that holds it.  In the code the object below holds it from the start; here its value is given to the
object below when it leaves the stack. -/
structure Frame where
  cls : Nat
  vals : Vals
  slot : Option Nat
deriving DecidableEq, Repr

/-- An entry of the stack of types. -/
inductive Ty where
  | object
  | error
  | feature (f : Nat)
deriving DecidableEq, Repr

/-- The stacks (last entry first), the text builder, the objects of the resource that left the
stack, the number of errors. -/
structure St where
  objects : List (Option Frame)
  types : List Ty
  builder : Option String
  contents : Objs
  errors : Nat
deriving DecidableEq, Repr

def init : St := ⟨[], [], none, .nil, 0⟩

/-- `setAttributeValue` (ecore/xmldecoder.go 562-581).  An attribute that names a reference is read
as an identifier; simplification: there is no object with this identifier, which is an error. -/
def setAttribute (fs : List Feature) (vs : Vals) (errors : Nat) (loc value : String) : Vals × Nat :=
  match getFeature fs loc with
  | some i =>
    match fs[i]? with
    | some f => if f.data then (if f.many then vs else vs.addText i false value, errors) else (vs, errors + 1)
    | none => (vs, errors)
  | none => (vs, errors + 1)

/-- `handleAttributes` (ecore/xmldecoder.go 517-536).  An attribute `href` makes a proxy, whatever its
namespace; the proxy is not modelled. -/
def handleAttributes (fs : List Feature) : List (Name × String) → Vals × Nat → Vals × Nat
  | [], r => r
  | (n, v) :: as, (vs, e) =>
    if n.loc = "href" ∨ n.loc = "xmlns" ∨ n.space = "xmlns" then handleAttributes fs as (vs, e)
    else handleAttributes fs as (setAttribute fs vs e n.loc v)

/-- `createObjectWithFactory` (ecore/xmldecoder.go 364-376) for a class; `attrs` is `none` when
attributes are not handled.  The result is the values of the new object, and the number of errors. -/
def create (m : Meta) (cls : Option Nat) (attrs : Option (List (Name × String))) (errors : Nat) :
    Option (Nat × Vals) × Nat :=
  match cls with
  | none => (none, errors)
  | some c =>
    match m.classes[c]? with
    | none => (none, errors)
    | some cl =>
      if cl.abstract then (none, errors)
      else
        let r := handleAttributes cl.features (attrs.getD []) (fresh cl.features, errors)
        (some (c, r.1), r.2)

/-- `processObject` (ecore/xmldecoder.go 316-323) -/
def processObject (s : St) (slot : Option Nat) : Option (Nat × Vals) → St
  | some (c, vs) => { s with objects := some ⟨c, vs, slot⟩ :: s.objects, types := .object :: s.types }
  | none => { s with types := .error :: s.types }

/-- `handleFeature` (ecore/xmldecoder.go 417-445) with `createObjectFromTypeName` and
`createObjectFromFeatureType` (378-415) -/
def handleFeature (m : Meta) (s : St) (loc : String) (type : Option Name) (attrs : List (Name × String)) : St :=
  match s.objects with
  | some o :: _ =>
    match m.classes[o.cls]? with
    | none => s
    | some cl =>
      match getFeature cl.features loc with
      | none => { s with errors := s.errors + 1 }
      | some i =>
        match cl.features[i]? with
        | none => s
        | some f =>
          if f.data then
            { s with builder := some "", types := .feature i :: s.types, objects := none :: s.objects }
          else
            match type with
            | none =>
              let r := create m (some f.type) (some attrs) s.errors
              processObject { s with errors := r.2 } (some i) r.1
            | some t =>
              match packageOf m t.space with
              | none => { s with errors := s.errors + 1 }
              | some p =>
                let r := create m (getType m p t.loc) (some attrs) s.errors
                processObject { s with errors := if r.1.isSome then r.2 else r.2 + 1 } (some i) r.1
  | _ => { s with types := .error :: s.types, errors := s.errors + 1 }

/-- The object that is not held by a document root any more (`Remove`, ecore/xmldecoder.go 343-350). -/
def detach (o : Frame) : Frame := { o with slot := none }

/-- `createTopObject` (ecore/xmldecoder.go 325-362); `none` is a panic. -/
def createTop (m : Meta) (suppress : Bool) (s : St) (name : Name) (type : Option Name) (attrs : List (Name × String)) :
    Option St :=
  match packageOf m name.space with
  | none => some { s with errors := s.errors + 1 }
  | some p =>
    match documentRoot m p with
    | some r =>
      let root := create m (some r) none s.errors
      let s' := handleFeature m (processObject { s with errors := root.2 } none root.1) name.loc type attrs
      if suppress then
        -- the first entries are removed
        if s'.objects = [] then none
        else
          let objects := s'.objects.dropLast
          let types := s'.types.dropLast
          match objects, root.1 with
          | [some o], _ => some { s' with objects := [some (detach o)], types := types }
          | [], some (c, vs) => some { s' with objects := [], types := types, contents := s'.contents.snoc c vs }
          | _, _ => some { s' with objects := objects, types := types }
      else some s'
    | none =>
      let r := create m (getType m p name.loc) (some attrs) s.errors
      some (processObject { s with errors := if r.1.isSome then r.2 else r.2 + 1 } none r.1)

/-- An object leaves the stack: the object below holds it, or the resource. -/
def leave (m : Meta) (o : Frame) (s : St) : St :=
  match o.slot, s.objects with
  | some i, some p :: rest =>
    match m.classes[p.cls]? with
    | some cl =>
      match cl.features[i]? with
      | some f => { s with objects := some { p with vals := p.vals.addKid i f.many o.cls o.vals } :: rest }
      | none => s
    | none => s
  | _, _ => { s with contents := s.contents.snoc o.cls o.vals }

/-- `endElement` (ecore/xmldecoder.go 181-215); `none` is a panic.  The text of an
element of an object is not modelled (it makes a proxy). -/
def endElement (m : Meta) (s : St) : Option St :=
  let object := s.objects.headD none
  let s' : St := ⟨s.objects.tail, s.types.tail, none, s.contents, s.errors⟩
  match s.builder, s.types with
  | some t, .feature i :: _ =>
    match object, s'.objects with
    | none, some p :: rest =>
      match m.classes[p.cls]? with
      | some cl =>
        match cl.features[i]? with
        | some f => some { s' with objects := some { p with vals := p.vals.addText i f.many t } :: rest }
        | none => none
      | none => none
    | _, _ => none
  | some _, [] => none
  | _, _ =>
    match object with
    | some o => some (leave m o s')
    | none => some s'

/-- `startElement`, `processElement`, `text` and `endElement` (ecore/xmldecoder.go 170-179, 295-308,
794-798) -/
def step (m : Meta) (suppress : Bool) (s : St) : Token → Option St
  | .start name type attrs =>
    if s.objects = [] then createTop m suppress s name type attrs
    else some (handleFeature m s name.loc type attrs)
  | .chars t => some { s with builder := s.builder.map (· ++ t) }
  | .stop => endElement m s

def run (m : Meta) (suppress : Bool) : St → List Token → Option St
  | s, [] => some s
  | s, t :: ts =>
    match step m suppress s t with
    | some s' => run m suppress s' ts
    | none => none

/-- The objects of the stack at the end of the document, the document root among them. -/
def settle (m : Meta) : Nat → St → St
  | 0, s => s
  | fuel + 1, s =>
    match s.objects with
    | some o :: rest => settle m fuel (leave m o { s with objects := rest })
    | none :: rest => settle m fuel { s with objects := rest }
    | [] => s

/-- Loading: the contents of the resource and the number of errors; `none` is a panic. -/
def decode (m : Meta) (suppress : Bool) (doc : List Token) : Option (Objs × Nat) :=
  (run m suppress init doc).map (fun s =>
    let s := settle m s.objects.length s
    (s.contents, s.errors))

end Verif.XMLRoot
