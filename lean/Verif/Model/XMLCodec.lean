import Verif.Model.XMLLex
import Verif.Model.XMLPrefix
import Mathlib.Data.List.Sort

/-!
# Saving to XMI and loading it

`XMIEncoder` and `XMIDecoder` (ecore/xmlencoder.go, ecore/xmiencoder.go, ecore/xmldecoder.go, ecore/xmidecoder.go), from the
objects of a resource to the text of the document (Model/XMLString.lean) and, through the parser of the library
(Model/XMLLex.lean), back to objects.

Texts are lists of characters.  Panics, endless loops and texts that the parser refuses are `none`; an error reported to the
resource is counted.

Simplifications: objects are not model elements (those have other fragments, see C27); references have no opposites (the
references to the container are not written, and are set by the containment: they are not modelled here); there is one
resource being written, number 0; the options of the encoder for other roots, and of the decoder for a deferred attachment of
the roots, are not modelled; extended meta data are not used by XMI (ecore/xmiencoder.go 33, ecore/xmidecoder.go 41).
-/

namespace Verif.XMLCodec

open Verif.XMLString (Text Call escape)
open Verif.XMLLex (Name Token)

/-- A structural feature.  `type` is the class of a reference or the data type of an attribute. -/
structure Feature where
  name : Text
  isReference : Bool := false
  containment : Bool := false
  /-- the opposite is a containment -/
  container : Bool := false
  many : Bool := false
  transient : Bool := false
  unsettable : Bool := false
  serializable : Bool := true
  isID : Bool := false
  type : Nat := 0
deriving DecidableEq, Repr

/-- values of a feature: references and data, `none` being nil -/
inductive Val (D : Type) where
  | obj (o : Option Nat)
  | objs (l : List (Option Nat))
  | data (v : Option D)
  | datas (l : List (Option D))
deriving DecidableEq, Repr

/-- The metamodel and the environment.  Classes, packages and data types are numbered. -/
structure Env (D : Type) where
  pkg : Nat → Nat
  name : Nat → Text
  isAbstract : Nat → Bool
  /-- `GetEAllStructuralFeatures` -/
  features : Nat → List Feature
  /-- the class `EObject` of Ecore -/
  eObject : Nat
  /-- `GetNsURI` and `GetNsPrefix` of a package -/
  ns : XMLPrefix.World
  /-- `GetFactory` of the package registry of the reader: the package -/
  factory : Text → Option Nat
  /-- `GetEClassifier`, if it is a class -/
  classifier : Nat → Text → Option Nat
  /-- `ConvertToString` and `CreateFromString` of a data type -/
  toText : Nat → D → Text
  fromText : Nat → Text → D
  /-- `Relativize` with the URI of the resource; `ParseURI` and `Resolve`, `none` for an error -/
  relativize : Text → Text
  resolve : Text → Option Text

/-- The objects of the writer: class, values of the features that are set (`EIsSet`, `EGetResolve(…, false)`), proxy URI,
`EResource`, `EInternalResource`, container with its feature, ID given by the manager (printed with `%v`), fragment in its
resource when this is another one; roots of the resource, URIs of the resources, whether there is a manager. -/
structure Graph (D : Type) where
  cls : Nat → Nat
  slot : Nat → Nat → Option (Val D)
  proxy : Nat → Option Text
  res : Nat → Option Nat
  direct : Nat → Option Nat
  container : Nat → Option (Nat × Nat)
  id : Nat → Option Text
  fragment : Nat → Text
  roots : List Nat
  uri : Nat → Text
  manager : Bool

/-- `XML_OPTION_ID_ATTRIBUTE_NAME` and `XML_OPTION_DEFERRED_REFERENCE_RESOLUTION` -/
structure Opt where
  idAttribute : Text := []
  deferred : Bool := false

variable {D : Type}

/-! ## Fragments (see also Model/Fragment.lean) -/

/-- strconv Itoa -/
def itoa (n : Nat) : Text := if n < 10 then [Char.ofNat (48 + n)] else itoa (n / 10) ++ [Char.ofNat (48 + n % 10)]

/-- strings.Join with a character -/
def join (c : Char) : List Text → Text
  | [] => []
  | [s] => s
  | s :: ss => s ++ c :: join c ss

/-- strings.Split with a character -/
def split (c : Char) : Text → List Text
  | [] => [[]]
  | x :: r =>
    if x = c then [] :: split c r
    else match split c r with
      | [] => [[x]]
      | s :: ss => (x :: s) :: ss

/-- strings.LastIndex of a character -/
def lastIndex (c : Char) : Text → Option Nat
  | [] => none
  | x :: r =>
    match lastIndex c r with
    | some i => some (i + 1)
    | none => if x = c then some 0 else none

/-- `GetEObjectID` (ecore/ecoreutils.go 16-24): the first ID attribute (ecore/eclass_ext.go 271-293), if it is set.  A nil value has no ID here. -/
def eid (env : Env D) (cls : Nat) (slot : Nat → Option (Val D)) : Text :=
  match (env.features cls).findIdx? (fun f => !f.isReference && f.isID) with
  | none => []
  | some i =>
    match slot i, (env.features cls)[i]? with
    | some (.data (some v)), some f => env.toText f.type v
    | _, _ => []

/-- `getIDForObject` (ecore/eresource_impl.go 302-309) -/
def idFor (env : Env D) (g : Graph D) (o : Nat) : Text :=
  match (if g.manager then g.id o else none) with
  | some id => id
  | none => eid env (g.cls o) (g.slot o)

/-- `getURIFragmentRootSegment` (ecore/eresource_impl.go 293-300) -/
def rootSegment (g : Graph D) (o : Nat) : Text :=
  if g.roots.length > 1 then (match g.roots.idxOf? o with | some i => itoa i | none => "-1".toList) else []

/-- the elements of a list value -/
def elements : Option (Val D) → List (Option Nat)
  | some (.objs l) => l
  | _ => []

/-- `EURIFragmentSegment` (ecore/abstracteobject.go 915-924); `none` is a panic -/
def segment (env : Env D) (g : Graph D) (c i o : Nat) : Option Text :=
  match (env.features (g.cls c))[i]? with
  | none => none
  | some f =>
    if f.many then
      match g.slot c i with
      | some (.objs l) => some ('@' :: f.name ++ '.' :: (match l.idxOf? (some o) with | some k => itoa k | none => "-1".toList))
      | none => some ('@' :: f.name ++ '.' :: "-1".toList)
      | _ => none
    else some ('@' :: f.name)

/-- The loop of `GetURIFragment` (ecore/eresource_impl.go 268-277) with `n` steps left: the last object, whether it is in the
resource, the path. -/
def climb (env : Env D) (g : Graph D) (id : Text) : Nat → Nat → List Text → Option (Nat × Bool × List Text)
  | 0, _, _ => none
  | n + 1, x, path =>
    match g.container x with
    | none => some (x, false, path)
    | some (c, i) =>
      match (if id = [] then (segment env g c i x).map (· :: path) else some path) with
      | none => none
      | some path => if g.direct c = some 0 then some (c, true, path) else climb env g id n c path

/-- `GetURIFragment` (ecore/eresource_impl.go 254-291) -/
def uriFragment (env : Env D) (g : Graph D) (n : Nat) (o : Nat) : Option Text :=
  if eid env (g.cls o) (g.slot o) ≠ [] then some (eid env (g.cls o) (g.slot o))
  else
    let id := idFor env g o
    if g.direct o = some 0 then
      if id ≠ [] then some id else some ('/' :: rootSegment g o)
    else
      match climb env g id n o [] with
      | none => none
      | some (x, contained, path) =>
        if !contained then some "/-1".toList
        else if id = [] then some (join '/' ([] :: rootSegment g x :: path))
        else some id

/-! ## Encoder -/

/-- ecore/xmlencoder.go 22-50, the kinds that `getSaveFeatureKind` gives -/
inductive SaveKind where
  | transient
  | dataSingle
  | dataNillable
  | dataMany
  | containSingle (unsettable : Bool)
  | containMany (unsettable : Bool)
  | hrefSingle (unsettable : Bool)
  | hrefMany (unsettable : Bool)
deriving DecidableEq, Repr

/-- `getSaveFeatureKind` (ecore/xmlencoder.go 561-617) -/
def saveKind (f : Feature) : SaveKind :=
  if f.transient then .transient
  else if f.isReference then
    if f.containment then
      if f.many then .containMany f.unsettable else .containSingle f.unsettable
    else if f.container then .transient
    else if f.many then .hrefMany f.unsettable
    else .hrefSingle f.unsettable
  else if !f.serializable then .transient
  else if f.many then .dataMany
  else if f.unsettable then .dataNillable
  else .dataSingle

/-- ecore/xmlencoder.go 619-623 -/
inductive ResKind where
  | skip | same | cross
deriving DecidableEq, Repr

/-- `getSaveResourceKindSingle` (ecore/xmlencoder.go 627-640), and of one element in 642-661 -/
def resKind (g : Graph D) : Option Nat → ResKind
  | none => .skip
  | some o =>
    if (g.proxy o).isSome then .cross
    else if g.res o = some 0 ∨ g.res o = none then .same
    else .cross

/-- the loop of `getSaveResourceKindMany` (ecore/xmlencoder.go 647-660) -/
def resKinds (g : Graph D) : List (Option Nat) → ResKind
  | [] => .same
  | o :: l =>
    match resKind g o with
    | .same => resKinds g l
    | k => k

/-- `getSaveResourceKindMany` (ecore/xmlencoder.go 642-661) -/
def resKindMany (g : Graph D) (l : List (Option Nat)) : ResKind := if l = [] then .skip else resKinds g l

/-- the value as an object (ecore/xmlencoder.go 433, 482, 513, 628) -/
def asObject : Option (Val D) → Option Nat
  | some (.obj o) => o
  | _ => none

/-- `isNil` (ecore/xmlencoder.go 550-552) for a feature that is set -/
def isNil : Option (Val D) → Bool
  | some (.obj none) => true
  | some (.data none) => true
  | none => true
  | _ => false

/-- `isEmpty` (ecore/xmlencoder.go 554-556) for a feature that is set: `none` if it is no list -/
def isEmpty : Option (Val D) → Option Bool
  | some (.objs l) => some l.isEmpty
  | some (.datas l) => some l.isEmpty
  | _ => none

/-- What the first loop of `saveFeatures` does with a feature: attributes, or an element later. -/
inductive Todo where
  | attributes (calls : List Call)
  | element
deriving DecidableEq, Repr

/-- the attributes of a feature -/
def Todo.calls : Todo → List Call
  | .attributes c => c
  | .element => []

/-- `saveDataTypeSingle` (ecore/xmlencoder.go 364-370) -/
def saveDataSingle (env : Env D) (f : Feature) : Option (Val D) → List Call
  | some (.data (some v)) => [.addAttribute f.name (escape (env.toText f.type v))]
  | _ => []

/-- `getIDRef` (ecore/xmlencoder.go 795-801) -/
def idRef (env : Env D) (g : Graph D) (n : Nat) (o : Nat) : Option Text := (uriFragment env g n o).map ('#' :: ·)

/-- `saveIDRefSingle` (ecore/xmlencoder.go 512-520) -/
def saveIDRefSingle (env : Env D) (g : Graph D) (n : Nat) (f : Feature) (v : Option (Val D)) : Option (List Call) :=
  match asObject v with
  | none => some []
  | some o => (idRef env g n o).map fun id => [.addAttribute f.name id]

/-- `saveIDRefMany` (ecore/xmlencoder.go 522-548), for a list with elements none of which is nil.  IDs are never empty, since
they begin with `#`. -/
def saveIDRefMany (env : Env D) (g : Graph D) (n : Nat) (f : Feature) (v : Option (Val D)) : Option (List Call) :=
  ((elements v).mapM fun (o : Option Nat) => o.bind (idRef env g n)).map fun ids => [.addAttribute f.name (join ' ' ids)]

/-- The first loop of `saveFeatures` (ecore/xmlencoder.go 234-312) for one feature of an object. -/
def todo (env : Env D) (g : Graph D) (n : Nat) (o i : Nat) (f : Feature) : Option Todo :=
  let v := g.slot o i
  if v.isNone then some (.attributes [])
  else
    let href (k : ResKind) (same : Option (List Call)) : Option Todo :=
      match k with
      | .cross => some .element
      | .same => same.map .attributes
      | .skip => some (.attributes [])
    match saveKind f with
    | .transient => some (.attributes [])
    | .dataSingle => some (.attributes (saveDataSingle env f v))
    | .dataNillable => some (if isNil v then .element else .attributes (saveDataSingle env f v))
    | .dataMany => (isEmpty v).map fun e => if e then .attributes [.addAttribute f.name []] else .element
    | .containMany u =>
      if u then (isEmpty v).map fun e => if e then .attributes [.addAttribute f.name []] else .element
      else some .element
    | .containSingle _ => some .element
    | .hrefSingle u =>
      if u && isNil v then some .element
      else href (resKind g (asObject v)) (saveIDRefSingle env g n f v)
    | .hrefMany u =>
      match (if u then isEmpty v else some false) with
      | none => none
      | some true => some (.attributes [.addAttribute f.name []])
      | some false => href (resKindMany g (elements v)) (saveIDRefMany env g n f v)

/-- The state of the encoder: prefixes (Model/XMLPrefix.lean), those declared (the keys of `prefixesToURI`), errors. -/
structure Enc where
  prefixes : XMLPrefix.Enc := XMLPrefix.Enc.init
  declared : List String := []
  errors : Nat := 0

/-- a prefix is declared -/
def addPrefix (l : List String) (p : String) : List String := if p ∈ l then l else l ++ [p]

/-- `getClassQName` (ecore/xmlencoder.go 664-666, 683-692) -/
def classQName (env : Env D) (st : Enc) (c : Nat) : Option (Enc × Text) :=
  (XMLPrefix.getPrefix env.ns 1 st.prefixes (env.pkg c) false).map fun (p, q) =>
    ({ st with prefixes := p, declared := addPrefix st.declared q },
      if q = "" then env.name c else if env.name c = [] then q.toList else q.toList ++ ':' :: env.name c)

/-- `saveTypeAttribute` (ecore/xmlencoder.go 475-479) -/
def saveTypeAttribute (env : Env D) (st : Enc) (c : Nat) : Option (Enc × List Call) :=
  (classQName env st c).map fun (st, q) =>
    ({ st with prefixes := XMLPrefix.declareXsi st.prefixes, declared := addPrefix st.declared XMLPrefix.xsiNS },
      [.addAttribute "xsi:type".toList q])

/-- `getHRef`, `getResourceHRef` (ecore/xmlencoder.go 768-793): `""` is an object that is in no resource.  `NewURIBuilder(u).
SetFragment(f).URI()` is `u#f`. -/
def getHRef (env : Env D) (g : Graph D) (n : Nat) (o : Nat) : Option Text :=
  match g.proxy o with
  | some u => some (env.relativize u)
  | none =>
    match g.res o with
    | none =>
      if g.manager && (g.id o).isSome then (uriFragment env g n o).map fun f => env.relativize (g.uri 0 ++ '#' :: f)
      else some []
    | some 0 => (uriFragment env g n o).map fun f => env.relativize (g.uri 0 ++ '#' :: f)
    | some r => some (env.relativize (g.uri r ++ '#' :: g.fragment o))

/-- `saveHRef` (ecore/xmlencoder.go 498-510) -/
def saveHRef (env : Env D) (g : Graph D) (n : Nat) (st : Enc) (o : Nat) (f : Feature) : Option (Enc × List Call) := do
  let href ← getHRef env g n o
  if href = [] then some ({ st with errors := st.errors + 1 }, [])
  else
    let (st, t) ← if f.type ≠ g.cls o ∧ env.isAbstract f.type then saveTypeAttribute env st (g.cls o) else some (st, [])
    some (st, .startElement f.name :: t ++ [.addAttribute "href".toList href, .endEmptyElement])

/-- `saveElementID` (ecore/xmlencoder.go 220-226) -/
def saveElementID (g : Graph D) (opt : Opt) (o : Nat) : List Call :=
  match (if g.manager && opt.idAttribute ≠ [] then g.id o else none) with
  | some id => [.addAttribute opt.idAttribute id]
  | none => []

/-- calls one after the other -/
def each {α : Type} (h : Enc → α → Option (Enc × List Call)) : Enc → List α → Option (Enc × List Call)
  | st, [] => some (st, [])
  | st, x :: l => do
    let (st, a) ← h st x
    let (st, b) ← each h st l
    some (st, a ++ b)

/-- `saveDataTypeMany` (ecore/xmlencoder.go 372-391) for one value -/
def saveData (env : Env D) (f : Feature) (st : Enc) : Option D → Option (Enc × List Call)
  | none => some ({ st with prefixes := XMLPrefix.declareXsi st.prefixes, declared := addPrefix st.declared XMLPrefix.xsiNS },
      [.startElement f.name, .addAttribute "xsi:nil".toList "true".toList, .endEmptyElement])
  | some v => some (st, [.addContent f.name (env.toText f.type v)])

/-- The data of a list value. -/
def datasOf : Option (Val D) → List (Option D)
  | some (.datas l) => l
  | _ => []

/-- `saveFeatures` (ecore/xmlencoder.go 228-362), with `saveEObjectInternal`, `saveEObject` (456-473) for the contents; `n`
bounds the depth, `m` the climb of a fragment.  The option that keeps default values is not modelled. -/
def saveFeatures (env : Env D) (g : Graph D) (opt : Opt) (m : Nat) : Nat → Enc → Nat → Option (Enc × List Call)
  | 0, _, _ => none
  | n + 1, st, o => do
    let fs := (env.features (g.cls o)).zipIdx
    let ts ← fs.mapM fun p => (todo env g m o p.2 p.1).map fun t => (p, t)
    let attributes := ts.flatMap fun t => t.2.calls
    let es := ts.filterMap fun t => if t.2 = .element then some t.1 else none
    if es = [] then some (st, attributes ++ [.endEmptyElement])
    else do
      let contained (f : Feature) (st : Enc) (x : Option Nat) : Option (Enc × List Call) :=
        match x with
        | none => some (st, [])
        | some x =>
          if (g.direct x).isSome ∨ (g.proxy x).isSome then saveHRef env g m st x f
          else do
            let (st, t) ← if f.type ≠ g.cls x ∧ f.type ≠ env.eObject then saveTypeAttribute env st (g.cls x) else some (st, [])
            let (st, c) ← saveFeatures env g opt m n st x
            some (st, .startElement f.name :: t ++ saveElementID g opt x ++ c)
      let href (f : Feature) (st : Enc) (x : Option Nat) : Option (Enc × List Call) :=
        match x with
        | none => some (st, [])
        | some x => saveHRef env g m st x f
      let (st, c) ← each (fun st (p : Feature × Nat) =>
        let v := g.slot o p.2
        match saveKind p.1 with
        | .dataNillable => some (st, [.addNil p.1.name])
        | .dataMany => each (saveData env p.1) st (datasOf v)
        | .containSingle u => if u && isNil v then some (st, [.addNil p.1.name]) else contained p.1 st (asObject v)
        | .containMany _ => each (contained p.1) st (elements v)
        | .hrefSingle u => if u && isNil v then some (st, [.addNil p.1.name]) else href p.1 st (asObject v)
        | .hrefMany _ => each (href p.1) st (elements v)
        | _ => some (st, [])) st es
      some (st, attributes ++ c ++ [.endElement])

/-- `saveTopObject` without extended meta data (ecore/xmlencoder.go 161-178) -/
def saveTop (env : Env D) (g : Graph D) (opt : Opt) (n : Nat) (o : Nat) : Option (Enc × List Call) := do
  let (st, q) ← classQName env {} (g.cls o)
  let (st, c) ← saveFeatures env g opt n n st o
  some (st, .startElement q :: saveElementID g opt o ++ c)

/-- ecore/xmidecoder.go 18-23 -/
def xmiURI : Text := "http://www.omg.org/XMI".toList

/-- `saveNamespaces` (ecore/xmiencoder.go 43-47, ecore/xmlencoder.go 205-218) -/
def namespaces (st : Enc) : List (Text × Text) :=
  ("xmi:version".toList, "2.0".toList) :: ("xmlns:xmi".toList, xmiURI) ::
    (st.declared.insertionSort (· ≤ ·)).map fun p =>
      (if p = "" then "xmlns".toList else "xmlns:".toList ++ p.toList, ((st.prefixes.prefixesToURI p).getD "").toList)

/-- `saveHeader` (ecore/xmlencoder.go 156-159) -/
def header : Text := "<?xml version=\"1.0\" encoding=\"UTF-8\"?>".toList

/-- `EncodeResource`, `encodeTopObject` (ecore/xmlencoder.go 108-154): the text of the document and the number of errors -/
def encode (env : Env D) (g : Graph D) (opt : Opt) (n : Nat) : Option (Text × Nat) :=
  match g.roots with
  | [] => some ([], 0)
  | o :: _ => do
    let (st, c) ← saveTop env g opt n o
    let t ← XMLString.document header c (namespaces st)
    some (t, st.errors)

/-! ## Decoder -/

/-- an object being read: class, values of the features, proxy URI, container and its feature -/
structure Copy (D : Type) where
  cls : Nat
  slot : Nat → Option (Val D) := fun _ => none
  proxy : Option Text := none
  container : Option (Nat × Nat) := none

/-- entries of the stack of types (ecore/xmldecoder.go 40-43, 317-323): features by position -/
inductive Ty where
  | object
  | error
  | feature (i : Nat) (f : Feature)
deriving DecidableEq, Repr

/-- `xmlReference` (ecore/xmldecoder.go 45-50) -/
structure Ref where
  obj : Nat
  feat : Nat
  feature : Feature
  id : Text
  pos : Nat
deriving DecidableEq, Repr

/-- The decoder: objects created, contents of the resource, IDs of the manager, the stacks (last entry first), the text, the
prefixes declared by each open element, the references to resolve, the number of errors. -/
structure Dec (D : Type) where
  objs : List (Copy D) := []
  roots : List Nat := []
  ids : List (Text × Nat) := []
  objects : List (Option Nat) := []
  types : List Ty := []
  builder : Option Text := none
  spaces : List (List (Text × Text)) := []
  refs : List Ref := []
  errors : Nat := 0

/-- a result that may be a panic -/
inductive Ret where
  | panic
  | nil
  | obj (o : Nat)
deriving DecidableEq, Repr

/-- the class of an object -/
def clsOf (s : Dec D) (o : Nat) : Nat := match s.objs[o]? with | some c => c.cls | none => 0

/-- the value of a feature of an object -/
def slotOf (s : Dec D) (o i : Nat) : Option (Val D) := match s.objs[o]? with | some c => c.slot i | none => none

/-- `GetEStructuralFeatureFromName` (ecore/eclass_ext.go 138-157): the last feature of the name, with its position -/
def findFeature (env : Env D) (cls : Nat) (name : Text) : Option (Nat × Feature) :=
  ((env.features cls).zipIdx.reverse.find? fun p => p.1.name = name).map fun p => (p.2, p.1)

/-- digits of a decimal number -/
def digits (acc : Nat) : Text → Option Nat
  | [] => some acc
  | c :: r => if XMLLex.isDigit c then digits (10 * acc + (c.toNat - 48)) r else none

/-- strconv Atoi without its error: 0 for a syntax error, the nearest int if it is out of range -/
def atoi (s : Text) : Int :=
  let neg := s.head? == some '-'
  let ds := if s.head? == some '+' || neg then s.tail else s
  if ds = [] then 0
  else match digits 0 ds with
    | none => 0
    | some n => if neg then max (-(n : Int)) (-(2 ^ 63)) else min (n : Int) (2 ^ 63 - 1)

/-- `EObjectForFragmentSegment` (ecore/abstracteobject.go 887-913); digits that are not ASCII are not modelled -/
def forSegment (env : Env D) (s : Dec D) (o : Nat) (seg : Text) : Ret :=
  if seg.head? ≠ some '@' then .panic
  else
    let index := if (seg.getLast?.map XMLLex.isDigit).getD false then lastIndex '.' seg else none
    match index with
    | some k =>
      let pos := atoi (seg.drop (k + 1))
      match findFeature env (clsOf s o) ((seg.take k).drop 1) with
      | none => .panic
      | some (i, f) =>
        if f.many then
          let l := elements (slotOf s o i)
          if pos < l.length then
            if pos < 0 then .panic
            else match l[pos.toNat]? with
              | some (some x) => .obj x
              | _ => .panic
          else .nil
        else .nil
    | none =>
      match findFeature env (clsOf s o) (seg.drop 1) with
      | none => .panic
      | some (i, _) =>
        match asObject (slotOf s o i) with
        | some x => .obj x
        | none => .nil

/-- the loop of `getObjectByPath` (ecore/eresource_impl.go 332-334) -/
def follow (env : Env D) (s : Dec D) : Ret → List Text → Ret
  | .obj o, seg :: path => follow env s (forSegment env s o seg) path
  | r, _ => r

/-- an object of the contents with this ID (ecore/eresource_impl.go 317-318) -/
def hasEID (env : Env D) (s : Dec D) (id : Text) (o : Nat) : Bool :=
  match s.objs[o]? with
  | some c => (decide (o ∈ s.roots) || c.container.isSome) && decide (id = eid env c.cls c.slot)
  | none => false

/-- `getObjectByID` (ecore/eresource_impl.go 311-323).  Without manager all the contents are visited, parents first; while a
document is read this is the order in which the objects were created and the objects visited are those that are in the
contents of the resource or have a container. -/
def objectByID (env : Env D) (manager : Bool) (s : Dec D) (id : Text) : Ret :=
  if manager then
    match s.ids.lookup id with
    | some o => .obj o
    | none => .nil
  else
    match (List.range s.objs.length).find? (hasEID env s id) with
    | some o => .obj o
    | none => .nil

/-- `getObjectForRootSegment` (ecore/eresource_impl.go 338-351) -/
def objectForRoot (env : Env D) (manager : Bool) (s : Dec D) (seg : Text) : Ret :=
  match seg with
  | '?' :: id => objectByID env manager s id
  | _ =>
    let pos := if seg = [] then 0 else atoi seg
    if pos < 0 then .nil
    else match s.roots[pos.toNat]? with
      | some o => .obj o
      | none => .nil

/-- `getObjectByPath` (ecore/eresource_impl.go 325-336) -/
def objectByPath (env : Env D) (manager : Bool) (s : Dec D) : List Text → Ret
  | [] => objectForRoot env manager s []
  | seg :: path => follow env s (objectForRoot env manager s seg) path

/-- `GetEObject` (ecore/eresource_impl.go 237-252) -/
def getEObject (env : Env D) (manager : Bool) (s : Dec D) (id : Text) : Ret :=
  if id.head? = some '/' then objectByPath env manager s ((split '/' id).drop 1)
  else if id.getLast? = some '?' then
    if id.length < 2 then .panic
    else match lastIndex '?' (id.take (id.length - 2)) with
      | some i => objectByID env manager s (id.take i)
      | none => objectByID env manager s id
  else objectByID env manager s id

/-- an error is reported -/
def fail (s : Dec D) : Dec D := { s with errors := s.errors + 1 }

/-- an object is changed -/
def update (s : Dec D) (o : Nat) (h : Copy D → Copy D) : Dec D := { s with objs := s.objs.modify o h }

/-- a feature of an object is set -/
def putSlot (s : Dec D) (o i : Nat) (v : Option (Val D)) : Dec D :=
  update s o fun c => { c with slot := fun j => if j = i then v else c.slot j }

/-- an object gets a container -/
def contain (s : Dec D) (o i : Nat) (f : Feature) (x : Nat) : Dec D :=
  if f.containment then update s x fun c => { c with container := some (o, i) } else s

/-- `setFeatureValue` (ecore/xmldecoder.go 447-497) with an object; `pos` is `none` for -1.  Lists of references are unique.
An object that already has a container is not taken away from it. -/
def setObject (s : Dec D) (o i : Nat) (f : Feature) (x : Nat) (pos : Option Nat) : Option (Dec D) :=
  if f.many then
    let l := elements (slotOf s o i)
    let add : Option (Dec D) := if some x ∈ l then some s else some (contain (putSlot s o i (some (.objs (l ++ [some x])))) o i f x)
    match pos with
    | none => add
    | some p =>
      if o = x then
        match l.idxOf? (some x) with
        | none => if p ≤ l.length then some (contain (putSlot s o i (some (.objs (l.insertIdx p (some x))))) o i f x) else none
        | some j => if p < l.length then some (putSlot s o i (some (.objs ((l.eraseIdx j).insertIdx p (some x))))) else none
      else add
  else some (contain (putSlot s o i (some (.obj (some x)))) o i f x)

/-- `setFeatureValue` with a text; `last` tells that the position is -2 -/
def setText (env : Env D) (s : Dec D) (o i : Nat) (f : Feature) (t : Text) (last : Bool) : Dec D :=
  if f.many then
    if last then s
    else putSlot s o i (some (.datas (datasOf (slotOf s o i) ++ [some (env.fromText f.type t)])))
  else putSlot s o i (some (.data (some (env.fromText f.type t))))

/-- `handleProxy` (ecore/xmldecoder.go 657-674).  The proxies of the same document are of no use without opposites. -/
def handleProxy (env : Env D) (s : Dec D) (o : Nat) (t : Text) : Dec D :=
  match env.resolve t with
  | none => s
  | some u => update s o fun c => { c with proxy := some u }

/-- `processObject` (ecore/xmldecoder.go 316-323) -/
def processObject (s : Dec D) : Option Nat → Dec D
  | some o => { s with objects := some o :: s.objects, types := .object :: s.types }
  | none => { s with types := .error :: s.types }

/-- `Create` of a factory -/
def alloc (s : Dec D) (cls : Nat) : Dec D × Nat := ({ s with objs := s.objs ++ [{ cls := cls }] }, s.objs.length)

/-- `createObjectFromFeatureType` and `createObjectFromTypeName` (ecore/xmldecoder.go 378-415) without attributes, the class
being known -/
def createProxy (env : Env D) (s : Dec D) (o i : Nat) (f : Feature) (cls : Option Nat) : Option (Dec D × Option Nat) :=
  match cls with
  | some c =>
    if env.isAbstract c then some (processObject s none, none)
    else do
      let (s, x) := alloc s c
      let s ← setObject s o i f x none
      some (processObject s (some x), some x)
  | none => some (processObject s none, none)

/-- prefix and local name (ecore/xmldecoder.go 394-399) -/
def splitQName (q : Text) : Text × Text :=
  if ':' ∈ q ∧ q.head? ≠ some ':' then (q.takeWhile (· ≠ ':'), (q.dropWhile (· ≠ ':')).tail) else ([], q)

/-- `namespaces.getURI` (see C24): the declarations of the elements that are open, innermost first -/
def spaceOf (s : Dec D) (pre : Text) : Text := ((s.spaces.flatten).lookup pre).getD []

/-- the tokens of `setValueFromId` (ecore/xmldecoder.go 588-646): state, name of a type, position, references -/
def setIds (env : Env D) (manager : Bool) (opt : Opt) (o i : Nat) (f : Feature) :
    Dec D → Text → Nat → List Ref → List Text → Option (Dec D × Nat × List Ref)
  | s, _, pos, refs, [] => some (s, pos, refs)
  | s, q, pos, refs, t :: ts =>
    if '#' ∈ t ∧ t.head? ≠ some '#' then do
      let (s, p) ←
        if q = [] then createProxy env s o i f (some f.type)
        else
          match env.factory (spaceOf s (splitQName q).1) with
          | none => some (fail s, none)
          | some pk =>
            match env.classifier pk (splitQName q).2 with
            | some c => createProxy env (if env.isAbstract c then fail s else s) o i f (some c)
            | none => createProxy env (fail s) o i f none
      let s := match p with | some p => handleProxy env s p t | none => s
      if s.objects = [] then none
      else setIds env manager opt o i f { s with objects := s.objects.tail } [] (pos + 1) refs ts
    else if '#' ∉ t ∧ ':' ∈ t then setIds env manager opt o i f s t pos refs ts
    else
      let id := if '#' ∈ t then t.tail else t
      if opt.deferred then setIds env manager opt o i f s [] (pos + 1) (refs ++ [⟨o, i, f, id, pos⟩]) ts
      else
        match getEObject env manager s id with
        | .panic => none
        | .obj x => do
          let s ← setObject s o i f x none
          setIds env manager opt o i f s [] (pos + 1) refs ts
        | .nil => setIds env manager opt o i f s [] (pos + 1) (refs ++ [⟨o, i, f, id, pos⟩]) ts

/-- `setValueFromId` (ecore/xmldecoder.go 583-655) for a reference without opposite -/
def setValueFromId (env : Env D) (manager : Bool) (opt : Opt) (s : Dec D) (o i : Nat) (f : Feature) (ids : Text) : Option (Dec D) := do
  let (s, pos, refs) ← setIds env manager opt o i f s [] 0 [] (split ' ' ids)
  if pos = 0 then some (putSlot s o i (if f.many then some (.objs []) else some (.obj none)))
  else some { s with refs := s.refs ++ refs }

/-- `setAttributeValue` (ecore/xmldecoder.go 562-581); the prefix is of no use, since the namespace is ignored (760) -/
def setAttributeValue (env : Env D) (manager : Bool) (opt : Opt) (s : Dec D) (o : Nat) (qname value : Text) : Option (Dec D) :=
  match findFeature env (clsOf s o) (splitQName qname).2 with
  | none => some (fail s)
  | some (i, f) => if f.isReference then setValueFromId env manager opt s o i f value else some (setText env s o i f value true)

/-- `xsiURI` (ecore/xmldecoder.go 26) -/
def xsiURI : Text := XMLPrefix.xsiURI.toList

/-- `notFeatures` (ecore/xmldecoder.go 97, ecore/xmidecoder.go 36-40) -/
def notFeatures : List Name :=
  [⟨xsiURI, "type".toList⟩, ⟨xsiURI, "schemaLocation".toList⟩, ⟨xsiURI, "noNamespaceSchemaLocation".toList⟩,
    ⟨xmiURI, "type".toList⟩, ⟨xmiURI, "version".toList⟩, ⟨xmiURI, "uuid".toList⟩]

/-- `handleAttributes` (ecore/xmldecoder.go 517-536).  `SetID` is not refused, and the manager keeps the
IDs as they are written. -/
def handleAttributes (env : Env D) (manager : Bool) (opt : Opt) (o : Nat) : Dec D → List (Name × Text) → Option (Dec D)
  | s, [] => some s
  | s, (n, v) :: l => do
    let s ←
      if n.loc = opt.idAttribute then some (if manager then { s with ids := (v, o) :: s.ids } else s)
      else if n.loc = "href".toList then some (handleProxy env s o v)
      else if n.loc ≠ XMLLex.xmlns ∧ n.space ≠ XMLLex.xmlns ∧ n ∉ notFeatures then setAttributeValue env manager opt s o n.loc v
      else some s
    handleAttributes env manager opt o s l

/-- `createObjectWithFactory` (ecore/xmldecoder.go 364-376) -/
def create (env : Env D) (manager : Bool) (opt : Opt) (s : Dec D) (cls : Option Nat) (attributes : List (Name × Text)) :
    Option (Dec D × Option Nat) :=
  match cls with
  | some c =>
    if env.isAbstract c then some (s, none)
    else
      let (s, x) := alloc s c
      (handleAttributes env manager opt x s attributes).map (·, some x)
  | none => some (s, none)

/-- the end of `createObjectFromFeatureType` and `createObjectFromTypeName` (ecore/xmldecoder.go 386-391, 411-415) -/
def place (s : Dec D) (o i : Nat) (f : Feature) (x : Option Nat) : Option (Dec D) := do
  let s ← match x with
    | some x => setObject s o i f x none
    | none => some s
  some (processObject s x)

/-- `getAttributeValue` (ecore/xmldecoder.go 237-246) -/
def attributeValue (attributes : List (Name × Text)) (n : Name) : Text := (attributes.lookup n).getD []

/-- `getXSIType` (ecore/xmldecoder.go 248-250, ecore/xmidecoder.go 51-57) -/
def xsiType (attributes : List (Name × Text)) : Text :=
  let t := attributeValue attributes ⟨xsiURI, "type".toList⟩
  if t = [] then attributeValue attributes ⟨xmiURI, "type".toList⟩ else t

/-- `handleFeature` (ecore/xmldecoder.go 417-445), with `createObjectFromFeatureType` (378-391) and `createObjectFromTypeName`
(393-415) -/
def handleFeature (env : Env D) (manager : Bool) (opt : Opt) (s : Dec D) (loc : Text) (attributes : List (Name × Text)) : Option (Dec D) :=
  match s.objects with
  | some o :: _ =>
    match findFeature env (clsOf s o) loc with
    | none => some (fail s)
    | some (i, f) =>
      if f.isReference then
        let q := xsiType attributes
        if q ≠ [] then
          match env.factory (spaceOf s (splitQName q).1) with
          | none => some (fail s)
          | some pk => do
            let (s, x) ← create env manager opt s (env.classifier pk (splitQName q).2) attributes
            place (if x = none then fail s else s) o i f x
        else do
          let (s, x) ← create env manager opt s (some f.type) attributes
          place s o i f x
      else some { s with builder := some [], types := .feature i f :: s.types, objects := none :: s.objects }
  | _ => some (fail { s with types := .error :: s.types })

/-- `createTopObject` without document root, `processElement` (ecore/xmldecoder.go 295-308, 325-362) -/
def createTop (env : Env D) (manager : Bool) (opt : Opt) (s : Dec D) (name : Name) (attributes : List (Name × Text)) : Option (Dec D) :=
  match env.factory name.space with
  | none => some (fail s)
  | some pk => do
    let (s, x) ← create env manager opt s (env.classifier pk name.loc) attributes
    match x with
    | some x => some (let s := processObject s (some x); { s with roots := s.roots ++ [x] })
    | none => some (processObject (fail s) none)

/-- the prefixes that the attributes declare (`handlePrefixMapping`, ecore/xmldecoder.go 270-280), the last one first -/
def prefixesOf (attributes : List (Name × Text)) : List (Text × Text) :=
  (attributes.filterMap fun (a : Name × Text) =>
    if a.1.space = XMLLex.xmlns then some (a.1.loc, a.2)
    else if a.1.space = [] ∧ a.1.loc = XMLLex.xmlns then some ([], a.2)
    else none).reverse

/-- `startElement` (ecore/xmldecoder.go 170-179) -/
def startElement (env : Env D) (manager : Bool) (opt : Opt) (s : Dec D) (name : Name) (attributes : List (Name × Text)) : Option (Dec D) :=
  let s := { s with spaces := prefixesOf attributes :: s.spaces }
  if s.objects = [] then createTop env manager opt s name attributes
  else handleFeature env manager opt s name.loc attributes

/-- the loop of `handleReferences` (ecore/xmldecoder.go 738-746) -/
def handleReferences (env : Env D) (manager : Bool) : Dec D → List Ref → Option (Dec D)
  | s, [] => some s
  | s, r :: l =>
    match getEObject env manager s r.id with
    | .panic => none
    | .nil => handleReferences env manager (fail s) l
    | .obj x => (setObject s r.obj r.feat r.feature x (some r.pos)).bind fun s => handleReferences env manager s l

/-- the text in `endElement` (ecore/xmldecoder.go 203-215); `none` is a panic -/
def endText (env : Env D) (s : Dec D) (object : Option Nat) (type : Option Ty) (t : Text) : Option (Dec D) :=
  match type with
  | some .object =>
    if t = [] then some s
    else match object with
      | some o => some (handleProxy env s o t)
      | none => none
  | some .error => some s
  | some (.feature i f) =>
    match (if object = none then s.objects.headD none else object) with
    | some o => some (setText env s o i f t false)
    | none => none
  | none => none

/-- `endElement` (ecore/xmldecoder.go 181-228) -/
def endElement (env : Env D) (manager : Bool) (s : Dec D) : Option (Dec D) := do
  let object := s.objects.headD none
  let type := s.types.head?
  let s' := { s with objects := s.objects.tail, types := s.types.tail }
  let s' ← match s.builder with
    | none => some s'
    | some t => endText env s' object type t
  let s' := { s' with builder := none, spaces := s'.spaces.tail }
  if s'.spaces = [] then handleReferences env manager s' s'.refs else some s'

/-- one turn of the loop of `decodeTopObject` (ecore/xmldecoder.go 144-168) -/
def step (env : Env D) (manager : Bool) (opt : Opt) (s : Dec D) : Token → Option (Dec D)
  | .start name attributes => startElement env manager opt s name attributes
  | .stop _ => endElement env manager s
  | .text t => some { s with builder := s.builder.map (· ++ t) }
  | .inst => some s

/-- all the tokens -/
def run (env : Env D) (manager : Bool) (opt : Opt) : Dec D → List Token → Option (Dec D)
  | s, [] => some s
  | s, t :: ts => (step env manager opt s t).bind fun s => run env manager opt s ts

/-- `DecodeResource` (ecore/xmldecoder.go 119-128): what is read from the text.  Simplification: nothing is read of a text that
the parser refuses. -/
def decode (env : Env D) (manager : Bool) (opt : Opt) (t : Text) : Option (Dec D) :=
  (XMLLex.parse t).bind (run env manager opt {})

end Verif.XMLCodec
