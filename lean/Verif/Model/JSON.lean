/-
Writing objects as JSON: jsonencoder.go and jsoncodec.go.

Objects, classes and values of attributes are numbers.  The JSON writer is a library
that is not part of the code; it is assumed to write the document it is told to.
-/
namespace Verif.JSON

/-- A JSON document.  The keys of an object are in the order in which they are
written. -/
inductive Doc where
  | text (s : String)
  | array (items : List Doc)
  | object (fields : List (String × Doc))
  deriving Repr

/-- A structural feature: `isRef` tells references from attributes, `container` is
"the opposite is a containment", `resolve` is `IsResolveProxies`. -/
structure Feature where
  name : String
  transient : Bool
  isRef : Bool
  containment : Bool
  container : Bool
  many : Bool
  resolve : Bool
  deriving DecidableEq, Repr

/-- jsoncodec.go:30-39. -/
inductive FeatureKind where
  | transient | data | dataList | object | objectList | reference | referenceList
  deriving DecidableEq, Repr

/-- `getJSONCodecFeatureKind`: jsoncodec.go:41-77.  Every feature is a reference or an
attribute. -/
def featureKind (f : Feature) : FeatureKind :=
  if f.transient then .transient
  else if f.isRef then
    if f.containment then
      if f.many then .objectList else .object
    else if f.container then .transient
    else if f.resolve then
      if f.many then .referenceList else .reference
    else if f.many then .objectList
    else .object
  else if f.many then .dataList
  else .data

/-- A class: `label` is the URI of the package and the name. -/
structure Class where
  nsURI : String
  name : String
  features : List Feature
  deriving DecidableEq, Repr

/-- What a feature of an object holds; the values of attributes are numbers, `none`
is nil. -/
inductive Value where
  | data (v : Option Nat)
  | datas (vs : List (Option Nat))
  | object (o : Option Nat)
  | objects (os : List Nat)
  deriving DecidableEq, Repr

/-- The objects as the encoder sees them: class, `EIsSet`, the values without
resolution, the ID given by the manager of the resource, and the reference of the
object relative to the resource (jsonencoder.go:174-200), `none` when the object is in
no resource and has no ID. -/
structure World where
  cls : Nat → Class
  isSet : Nat → Feature → Bool
  value : Nat → Feature → Value
  id : Nat → Option String
  reference : Nat → Option String
  /-- `ConvertToString` of the data type of the feature -/
  convert : Feature → Nat → String

/-- The options: `idAttribute` is the name under which IDs are written, empty when
they are not; `manager` tells whether the resource has an ID manager
(jsonencoder.go:22-32, 64-68). -/
structure Options where
  idAttribute : String
  manager : Bool

/-- `getClassName`: jsonencoder.go:157-160. -/
def className (c : Class) : String := c.nsURI ++ "#//" ++ c.name

/-- `getReference`: jsonencoder.go:174-196. -/
def getReference (w : World) (o : Nat) : String :=
  match w.reference o with
  | some r => r
  | none => ""

/-- `encodeObjectReference`: jsonencoder.go:76-79. -/
def encodeReference (w : World) (o : Nat) : Doc :=
  .object [("eClass", .text (className (w.cls o))), ("eRef", .text (getReference w o))]

/-- The texts of a list of data: jsonencoder.go:119-128, 162-172. -/
def encodeDatas (w : World) (f : Feature) : List (Option Nat) → List Doc
  | [] => []
  | none :: vs => encodeDatas w f vs
  | some v :: vs => .text (w.convert f v) :: encodeDatas w f vs

/-- What is written of a part: `none` is a panic or no end, `some none` is nothing. -/
abbrev Part := Option (Option Doc)

/-- The ID of an object: jsonencoder.go:64-68. -/
def encodeID (opt : Options) (w : World) (o : Nat) : List (String × Doc) :=
  if opt.idAttribute != "" && opt.manager then
    match w.id o with
    | some i => [(opt.idAttribute, .text i)]
    | none => []
  else []

mutual

/-- `encodeObject`: jsonencoder.go:59-74.  `none` when the recursion is deeper than
`fuel`, or on a panic. -/
def encodeObject (opt : Options) (w : World) : Nat → Nat → Option Doc
  | 0, _ => none
  | fuel + 1, o =>
    match encodeFeatures opt w fuel o (w.cls o).features with
    | none => none
    | some fs => some (.object (("eClass", .text (className (w.cls o))) :: encodeID opt w o ++ fs))

/-- The loop over the features: jsonencoder.go:70-73. -/
def encodeFeatures (opt : Options) (w : World) : Nat → Nat → List Feature → Option (List (String × Doc))
  | _, _, [] => some []
  | fuel, o, f :: fs =>
    match encodeFeature opt w fuel o f with
    | none => none
    | some d =>
      match encodeFeatures opt w fuel o fs with
      | none => none
      | some rest =>
        match d with
        | none => some rest
        | some d => some ((f.name, d) :: rest)

/-- `encodeFeatureValue`: jsonencoder.go:93-151.  A feature that is not set is not
written (`keepDefaults`, jsonencoder.go:18 and 154, is never true).  The type
assertions panic on a value of the wrong kind and on nil. -/
def encodeFeature (opt : Options) (w : World) : Nat → Nat → Feature → Part
  | fuel, o, f =>
    if !w.isSet o f then some none
    else match featureKind f, w.value o f with
      | .transient, _ => some none
      | .data, .data (some v) => some (some (.text (w.convert f v)))
      | .data, .data none => some none
      | .dataList, .datas vs => some (some (.array (encodeDatas w f vs)))
      | .object, .object (some c) => (encodeObject opt w fuel c).map some
      | .objectList, .objects cs => (encodeObjects opt w fuel cs).map (fun ds => some (.array ds))
      | .reference, .object (some c) => some (some (encodeReference w c))
      | .referenceList, .objects cs => some (some (.array (cs.map (encodeReference w))))
      | _, _ => none

/-- The loop over contained objects: jsonencoder.go:133-140. -/
def encodeObjects (opt : Options) (w : World) : Nat → List Nat → Option (List Doc)
  | _, [] => some []
  | fuel, c :: cs =>
    match encodeObject opt w fuel c with
    | none => none
    | some d =>
      match encodeObjects opt w fuel cs with
      | none => none
      | some ds => some (d :: ds)
end

/-- `EncodeResource`: jsonencoder.go:34-42.  `none` is a panic or no end; nothing is
written when there are no objects. -/
def encodeResource (opt : Options) (w : World) (fuel : Nat) (contents : List Nat) : Part :=
  match contents with
  | [] => some none
  | o :: _ => (encodeObject opt w fuel o).map some

end Verif.JSON
