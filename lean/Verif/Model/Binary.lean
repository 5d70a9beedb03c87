/-!
# Binary serialisation

`BinaryEncoder`, `BinaryDecoder` and `getBinaryCodecFeatureKind` (ecore/binaryencoder.go, ecore/binarydecoder.go,
ecore/binarycodec.go).

The stream is the list of the items written with msgpack, an external library: an item that was written is read back, if it is
read with the function that fits the one it was written with.  Go errors and panics are `none`: neither encoder nor decoder
goes on after one.

Left out: inverse references and containers, which are set when a feature is set (the references of a graph that is read have
no opposites here; see C23 for the lists of opposites that the decoder fills); lookups of packages in the resource set when
they are not registered; the diagnostics added to the resource.
-/

namespace Verif.Binary

/-- types of the values that have their own encoding (ecore/binarycodec.go 44-57) -/
inductive Basic where
  | float64 | float32 | int | int64 | int32 | int16 | byte | bool | string | byteArray | date
deriving DecidableEq, Repr

/-- ecore/binarycodec.go 31-58 -/
inductive Kind where
  | objectContainer
  | objectContainerProxy
  | object
  | objectProxy
  | objectList
  | objectListProxy
  | objectContainment
  | objectContainmentProxy
  | objectContainmentList
  | objectContainmentListProxy
  | basic (t : Basic)
  | data
  | dataList
  | enum
deriving DecidableEq, Repr

/-- a structural feature: a reference or an attribute with its data type -/
structure Feature where
  name : String
  isReference : Bool := true
  containment : Bool := false
  container : Bool := false
  resolveProxies : Bool := false
  many : Bool := false
  transient : Bool := false
  /-- the data type of an attribute, whether it is an enum, and its `instanceTypeName` -/
  dataType : Nat := 0
  isEnum : Bool := false
  typeName : String := ""
  /-- the `name` of its extended meta data -/
  xmlName : String := ""
deriving DecidableEq, Repr

/-- ecore/binarycodec.go 104-127 -/
def basicOf (typeName : String) : Kind :=
  if typeName ∈ ["float64", "java.lang.Double", "double"] then .basic .float64
  else if typeName ∈ ["float32", "java.lang.Float", "float"] then .basic .float32
  else if typeName ∈ ["int", "java.lang.Integer"] then .basic .int
  else if typeName ∈ ["int64", "java.lang.Long", "java.math.BigInteger", "long"] then .basic .int64
  else if typeName ∈ ["int32"] then .basic .int32
  else if typeName ∈ ["int16", "java.lang.Short", "short"] then .basic .int16
  else if typeName ∈ ["byte"] then .basic .byte
  else if typeName ∈ ["bool", "java.lang.Boolean", "boolean"] then .basic .bool
  else if typeName ∈ ["string", "java.lang.String"] then .basic .string
  else if typeName ∈ ["[]byte", "java.util.ByteArray"] then .basic .byteArray
  else if typeName ∈ ["*time/time.Time", "java.util.Date"] then .basic .date
  else .data

/-- `getBinaryCodecFeatureKind` (ecore/binarycodec.go 60-133) -/
def kindOf (f : Feature) : Kind :=
  if f.isReference then
    if f.containment then
      if f.resolveProxies then
        if f.many then .objectContainmentListProxy else .objectContainmentProxy
      else if f.many then .objectContainmentList else .objectContainment
    else if f.container then
      if f.resolveProxies then .objectContainerProxy else .objectContainer
    else if f.resolveProxies then
      if f.many then .objectListProxy else .objectProxy
    else if f.many then .objectList else .object
  else if f.many then .dataList
  else if f.isEnum then .enum
  else basicOf f.typeName

/-- `isTransient` of `newFeatureData` (ecore/binaryencoder.go 501-526) -/
def isTransient (namespaces : Bool) (f : Feature) : Bool :=
  if namespaces && (f.xmlName == "xmlns:prefix" || f.xmlName == "xsi:schemaLocation") then false
  else if f.isReference then f.transient || (f.container && !f.resolveProxies)
  else f.transient

/-- a URI: the part before the fragment, and the fragment -/
structure URI where
  path : String
  fragment : String
deriving DecidableEq, Repr

/-- values of a feature, with references of type `R` and data of type `D` -/
inductive Val (R D : Type) where
  | obj (o : Option R)
  | objs (l : List (Option R))
  | data (v : D)
  | datas (l : List D)
deriving DecidableEq, Repr

/-- The metamodel and the environment.  Classes, packages, data types are numbered. -/
structure Env (D : Type) where
  /-- `GetNsURI`, `GetURI`, and the classifiers of a package -/
  nsURI : Nat → String
  pkgURI : Nat → Option URI
  classifiers : Nat → List Nat
  /-- package, name and features (`GetEAllStructuralFeatures`) of a class -/
  pkg : Nat → Nat
  name : Nat → String
  features : Nat → List Feature
  /-- the package registry of the reader; `GetEClassifier`; `GetEStructuralFeatureFromName` -/
  registry : String → Option Nat
  findClass : Nat → String → Option Nat
  findFeature : Nat → String → Option Feature
  /-- what is read of a value that was written with its own encoding, `none` if it does not have the type -/
  wire : Basic → D → Option D
  /-- `ConvertToString` and `CreateFromString` of a data type -/
  toText : Nat → D → String
  fromText : Nat → String → D
  /-- the URI of the resource, `Relativize` and `Resolve` with it -/
  baseURI : String
  relativize : String → String
  resolve : String → String

/-- The objects of the writer: class, values of the features that are set (`EIsSetFromID`, `EGetFromID`), proxy URI,
`EResource`, `EInternalResource`, fragment in its resource, ID; URIs of the resources. -/
structure Graph (D : Type) where
  cls : Nat → Nat
  slot : Nat → Nat → Option (Val Nat D)
  proxy : Nat → Option URI
  res : Nat → Option Nat
  direct : Nat → Option Nat
  fragment : Nat → String
  id : Nat → Option Nat
  resURI : Nat → Option String

/-- Options of the writer; `resource` is the resource; `root` the object that is written when only an object is,
`inRoot` tells whether it is an ancestor (`IsAncestor(root, ·)`). -/
structure Opt where
  ids : Bool := false
  namespaces : Bool := true
  resource : Nat := 0
  root : Option Nat := none
  inRoot : Nat → Bool := fun _ => true

/-- an item of the stream; `any` is an ID -/
inductive Tok (D : Type) where
  | int (i : Int)
  | str (s : String)
  | bytes (l : List Nat)
  | val (t : Basic) (v : D)
  | any (i : Nat)
deriving DecidableEq, Repr

/-- ecore/binaryencoder.go 22-27 -/
inductive Check where
  | nothing | directResource | resource | container
deriving DecidableEq, Repr

/-- ecore/binaryencoder.go 29-31 -/
def binaryVersion : Int := 0

def binarySignature : List Nat := [0o211, 101, 109, 102, 10, 13, 0o32, 10]

variable {D : Type}

/-! ### Encoder -/

/-- The state of the encoder: `objectToID` (the ID of an object is its position), `packageDataMap` (the same), the classes
`classData` of each package, the features the name of which was written (`featureData.name` is empty), `uriToIDMap`,
`enumLiteralToIDMap`. -/
structure Enc where
  objs : List Nat := []
  pkgs : List Nat := []
  classes : Nat → List Nat := fun _ => []
  named : Nat → Nat → Bool := fun _ _ => false
  uris : List String := []
  enums : List String := []

/-- `encodeURI`, `encodeURIWithFragment`, `relativizeURI` (ecore/binaryencoder.go 424-458) -/
def encodeURI (env : Env D) (st : Enc) : Option URI → Enc × List (Tok D)
  | none => (st, [.int (-1)])
  | some u =>
    if u.path ∈ st.uris then (st, [.int (st.uris.idxOf u.path), .str u.fragment])
    else
      ({ st with uris := st.uris ++ [u.path] },
        [.int st.uris.length, .str (env.relativize u.path), .str u.fragment])

/-- `encodePackage`, `newPackageData` (ecore/binaryencoder.go 403-422, 460-465) -/
def encodePackage (env : Env D) (st : Enc) (p : Nat) : Enc × List (Tok D) :=
  if p ∈ st.pkgs then (st, [.int (st.pkgs.idxOf p)])
  else
    let r := encodeURI env st (env.pkgURI p)
    ({ r.1 with pkgs := st.pkgs ++ [p] }, .int st.pkgs.length :: .str (env.nsURI p) :: r.2)

/-- `encodeClass`, `newClassData`, `newClassID` (ecore/binaryencoder.go 378-401, 467-493): the slots of `classData` are filled
from the first one on -/
def encodeClass (env : Env D) (st : Enc) (c : Nat) : Option (Enc × List (Tok D)) :=
  let p := env.pkg c
  if c ∈ st.classes p then some (st, [.int (st.pkgs.idxOf p), .int ((st.classes p).idxOf c)])
  else
    let r := encodePackage env st p
    if (st.classes p).length < (env.classifiers p).length then
      some ({ r.1 with classes := fun q => if q = p then st.classes p ++ [c] else st.classes q },
        r.2 ++ [.int (st.classes p).length, .str (env.name c)])
    else none

/-- The check of `encodeObject` (ecore/binaryencoder.go 215-257): the URI if the object is written as a reference. -/
def reference (g : Graph D) (opt : Opt) (o : Nat) : Check → Option (Option URI)
  | .directResource =>
    match g.proxy o with
    | some u => some (some u)
    | none =>
      match g.direct o with
      | some r => some ((g.resURI r).map fun p => ⟨p, g.fragment o⟩)
      | none => none
  | .resource =>
    match g.proxy o with
    | some u => some (some u)
    | none =>
      match g.res o with
      | some r =>
        if r ≠ opt.resource ∨ (opt.root ≠ none ∧ opt.inRoot o = false) then
          some ((g.resURI r).map fun p => ⟨p, g.fragment o⟩)
        else none
      | none => none
  | .nothing => none
  | .container => none

/-- `encodeObjects` (ecore/binaryencoder.go 181-192), without the size -/
def encodeObjects (enc : Enc → Option Nat → Check → Option (Enc × List (Tok D))) (check : Check) :
    Enc → List (Option Nat) → Option (Enc × List (Tok D))
  | st, [] => some (st, [])
  | st, o :: os =>
    match enc st o check with
    | none => none
    | some (st1, t1) =>
      match encodeObjects enc check st1 os with
      | none => none
      | some (st2, t2) => some (st2, t1 ++ t2)

/-- the value of `encodeFeatureValue` (ecore/binaryencoder.go 305-374); type assertions that fail are panics -/
def encodeValue (env : Env D) (enc : Enc → Option Nat → Check → Option (Enc × List (Tok D))) (st : Enc) (f : Feature) :
    Kind → Val Nat D → Option (Enc × List (Tok D))
  | .object, .obj (some o) => enc st (some o) .nothing
  | .objectContainment, .obj (some o) => enc st (some o) .nothing
  | .objectContainerProxy, .obj (some o) => enc st (some o) .resource
  | .objectContainmentProxy, .obj (some o) => enc st (some o) .directResource
  | .objectProxy, .obj (some o) => enc st (some o) .resource
  | .objectList, .objs l => (encodeObjects enc .nothing st l).map fun r => (r.1, .int l.length :: r.2)
  | .objectContainmentList, .objs l => (encodeObjects enc .nothing st l).map fun r => (r.1, .int l.length :: r.2)
  | .objectContainmentListProxy, .objs l => (encodeObjects enc .directResource st l).map fun r => (r.1, .int l.length :: r.2)
  | .objectListProxy, .objs l => (encodeObjects enc .resource st l).map fun r => (r.1, .int l.length :: r.2)
  | .data, .data v => some (st, [.str (env.toText f.dataType v)])
  | .dataList, .datas l => some (st, .int l.length :: l.map fun v => .str (env.toText f.dataType v))
  | .enum, .data v =>
    let s := env.toText f.dataType v
    if s ∈ st.enums then some (st, [.int (st.enums.idxOf s)])
    else some ({ st with enums := st.enums ++ [s] }, [.int st.enums.length, .str s])
  | .basic t, .data v => (env.wire t v).map fun w => (st, [.val t w])
  | _, _ => none

/-- `encodeFeatureValue` (ecore/binaryencoder.go 292-304): nothing for a feature that is not set; the name the first time -/
def encodeFeature (env : Env D) (g : Graph D) (enc : Enc → Option Nat → Check → Option (Enc × List (Tok D))) (o c i : Nat)
    (f : Feature) (st : Enc) : Option (Enc × List (Tok D)) :=
  match g.slot o i with
  | none => some (st, [])
  | some v =>
    let name : List (Tok D) := if f.name ≠ "" ∧ st.named c i = false then [.str f.name] else []
    let st1 := { st with named := fun c' i' => if c' = c ∧ i' = i then true else st.named c' i' }
    (encodeValue env enc st1 f (kindOf f) v).map fun r => (r.1, .int (i + 1) :: name ++ r.2)

/-- the loop of ecore/binaryencoder.go 276-282 over the features from position `i` on -/
def encodeFeatures (env : Env D) (g : Graph D) (opt : Opt) (enc : Enc → Option Nat → Check → Option (Enc × List (Tok D)))
    (check : Check) (o c : Nat) : Nat → List Feature → Enc → Option (Enc × List (Tok D))
  | _, [], st => some (st, [])
  | i, f :: fs, st =>
    if isTransient opt.namespaces f = false ∧ (check = .container ∨ kindOf f ≠ .objectContainerProxy) then
      match encodeFeature env g enc o c i f st with
      | none => none
      | some (st1, t1) =>
        match encodeFeatures env g opt enc check o c (i + 1) fs st1 with
        | none => none
        | some (st2, t2) => some (st2, t1 ++ t2)
    else encodeFeatures env g opt enc check o c (i + 1) fs st

/-- the ID (ecore/binaryencoder.go 262-273) -/
def encodeID (g : Graph D) (opt : Opt) (o : Nat) : List (Tok D) :=
  match opt.ids, g.id o with
  | true, some i => [.int (-1), .any i]
  | _, _ => []

/-- `encodeObject` (ecore/binaryencoder.go 194-290); the first argument bounds the depth of the calls -/
def encodeObject (env : Env D) (g : Graph D) (opt : Opt) : Nat → Enc → Option Nat → Check → Option (Enc × List (Tok D))
  | 0, _, _, _ => none
  | _ + 1, st, none, _ => some (st, [.int (-1)])
  | n + 1, st, some o, check =>
    if o ∈ st.objs then some (st, [.int (st.objs.idxOf o)])
    else
      match encodeClass env { st with objs := st.objs ++ [o] } (g.cls o) with
      | none => none
      | some (st1, t1) =>
        match reference g opt o check with
        | some u =>
          let r := encodeURI env st1 u
          some (r.1, .int st.objs.length :: t1 ++ .int (-2) :: r.2 ++ [.int 0])
        | none =>
          match encodeFeatures env g opt (encodeObject env g opt n) check o (g.cls o) 0 (env.features (g.cls o)) st1 with
          | none => none
          | some (st2, t2) => some (st2, .int st.objs.length :: t1 ++ encodeID g opt o ++ t2 ++ [.int 0])

/-- `EncodeResource` (ecore/binaryencoder.go 94-114) with the given contents; `depth` bounds the depth of the calls -/
def encodeResource (env : Env D) (g : Graph D) (opt : Opt) (version : Int) (depth : Nat) (contents : List (Option Nat)) :
    Option (List (Tok D)) :=
  (encodeObjects (encodeObject env g opt depth) .container {} contents).map fun r =>
    .bytes binarySignature :: .int version :: .int contents.length :: r.2

/-- `EncodeObject` (ecore/binaryencoder.go 116-125) -/
def encodeRoot (env : Env D) (g : Graph D) (opt : Opt) (version : Int) (depth : Nat) (o : Nat) : Option (List (Tok D)) :=
  (encodeObject env g { opt with root := some o } depth {} (some o) .container).map fun r =>
    .bytes binarySignature :: .int version :: r.2

/-! ### Decoder -/

/-- an object of the reader; references are positions in the objects of the decoder -/
structure Copy (D : Type) where
  cls : Nat
  proxy : Option URI := none
  id : Option Nat := none
  slot : Nat → Option (Val Nat D) := fun _ => none

/-- The state of the decoder: its objects, in the order in which they are created; the packages of `packageData`;
`eClassData` by position of the package and ID of the class; `featureData` by position of the package, ID of the class and
ID of the feature; URIs and literals. -/
structure Dec (D : Type) where
  objs : List (Copy D) := []
  pkgs : List Nat := []
  classAt : Nat → Nat → Option Nat := fun _ _ => none
  featAt : Nat → Nat → Nat → Option Feature := fun _ _ _ => none
  uris : List String := []
  enums : List String := []

/-- `decodeInt` -/
def decodeInt : List (Tok D) → Option (Int × List (Tok D))
  | .int i :: ts => some (i, ts)
  | _ => none

/-- `decodeString` -/
def decodeString : List (Tok D) → Option (String × List (Tok D))
  | .str s :: ts => some (s, ts)
  | _ => none

/-- an item of a list by an ID of the stream; `none` is a panic -/
def item {β : Type} (l : List β) (i : Int) : Option β := if i < 0 then none else l[i.toNat]?

/-- `decodeURI`, `resolveURI` (ecore/binarydecoder.go 537-576) -/
def decodeURI (env : Env D) (d : Dec D) (ts : List (Tok D)) : Option (Option URI × Dec D × List (Tok D)) :=
  match decodeInt ts with
  | none => none
  | some (id, ts) =>
    if id = -1 then some (none, d, ts)
    else if (d.uris.length : Int) ≤ id then
      match decodeString ts with
      | none => none
      | some (s, ts) =>
        let path := if s = "" then env.baseURI else env.resolve s
        match decodeString ts with
        | none => none
        | some (fragment, ts) => some (some ⟨path, fragment⟩, { d with uris := d.uris ++ [path] }, ts)
    else
      match item d.uris id with
      | none => none
      | some path =>
        match decodeString ts with
        | none => none
        | some (fragment, ts) => some (some ⟨path, fragment⟩, d, ts)

/-- `decodePackage`, `newPackageData` (ecore/binarydecoder.go 498-535, 578-583): the position of the package -/
def decodePackage (env : Env D) (d : Dec D) (ts : List (Tok D)) : Option (Nat × Dec D × List (Tok D)) :=
  match decodeInt ts with
  | none => none
  | some (id, ts) =>
    if (d.pkgs.length : Int) ≤ id then
      match decodeString ts with
      | none => none
      | some (ns, ts) =>
        match decodeURI env d ts with
        | none => none
        | some (_, d, ts) =>
          match env.registry ns with
          | none => none
          | some p =>
            let i := d.pkgs.length
            some (i, { d with
              pkgs := d.pkgs ++ [p],
              classAt := fun q k => if q = i then none else d.classAt q k }, ts)
    else if id < 0 then none
    else some (id.toNat, d, ts)

/-- `decodeClass`, `newClassData` (ecore/binarydecoder.go 478-496, 585-600): position of the package, ID and class -/
def decodeClass (env : Env D) (d : Dec D) (ts : List (Tok D)) : Option ((Nat × Nat × Nat) × Dec D × List (Tok D)) :=
  match decodePackage env d ts with
  | none => none
  | some (q, d, ts) =>
    match decodeInt ts, d.pkgs[q]? with
    | some (id, ts), some p =>
      if id < 0 ∨ ((env.classifiers p).length : Int) ≤ id then none
      else
        match d.classAt q id.toNat with
        | some c => some ((q, id.toNat, c), d, ts)
        | none =>
          match decodeString ts with
          | none => none
          | some (name, ts) =>
            match env.findClass p name with
            | none => none
            | some c =>
              some ((q, id.toNat, c), { d with
                classAt := fun q' k => if q' = q ∧ k = id.toNat then some c else d.classAt q' k,
                featAt := fun q' k i => if q' = q ∧ k = id.toNat then none else d.featAt q' k i }, ts)
    | _, _ => none

/-- the loop of `decodeObjects` (ecore/binarydecoder.go 282-294) -/
def decodeObjects (dec : Dec D → List (Tok D) → Option (Option Nat × Dec D × List (Tok D))) :
    Nat → Dec D → List (Tok D) → Option (List (Option Nat) × Dec D × List (Tok D))
  | 0, d, ts => some ([], d, ts)
  | n + 1, d, ts =>
    match dec d ts with
    | none => none
    | some (o, d, ts) =>
      match decodeObjects dec n d ts with
      | none => none
      | some (os, d, ts) => some (o :: os, d, ts)

/-- the loop over the strings of a list of data (ecore/binarydecoder.go 380-387) -/
def decodeStrings : Nat → List (Tok D) → Option (List String × List (Tok D))
  | 0, ts => some ([], ts)
  | n + 1, ts =>
    match decodeString ts with
    | none => none
    | some (s, ts) =>
      match decodeStrings n ts with
      | none => none
      | some (l, ts) => some (s :: l, ts)

/-- `ESetFromID`, and `AddAll` to the empty list of a feature -/
def setSlot (d : Dec D) (o i : Nat) (v : Val Nat D) : Dec D :=
  { d with objs := d.objs.modify o fun c => { c with slot := fun j => if j = i then some v else c.slot j } }

/-- `decodeFeatureValue` (ecore/binarydecoder.go 340-476) for the feature `i` of the object `o` -/
def decodeValue (env : Env D) (dec : Dec D → List (Tok D) → Option (Option Nat × Dec D × List (Tok D))) (d : Dec D) (o i : Nat)
    (f : Feature) (ts : List (Tok D)) : Option (Dec D × List (Tok D)) :=
  match kindOf f with
  | .objectContainer | .objectContainerProxy | .object | .objectProxy | .objectContainment | .objectContainmentProxy =>
    match dec d ts with
    | none => none
    | some (r, d, ts) => some (setSlot d o i (.obj r), ts)
  | .objectList | .objectListProxy | .objectContainmentList | .objectContainmentListProxy =>
    match decodeInt ts with
    | none => none
    | some (size, ts) =>
      if size < 0 then none
      else
        match decodeObjects dec size.toNat d ts with
        | none => none
        | some (l, d, ts) => some (setSlot d o i (.objs l), ts)
  | .data =>
    match decodeString ts with
    | none => none
    | some (s, ts) => some (setSlot d o i (.data (env.fromText f.dataType s)), ts)
  | .dataList =>
    match decodeInt ts with
    | none => none
    | some (size, ts) =>
      match decodeStrings size.toNat ts with
      | none => none
      | some (l, ts) => some (setSlot d o i (.datas (l.map (env.fromText f.dataType))), ts)
  | .enum =>
    match decodeInt ts with
    | none => none
    | some (id, ts) =>
      if (d.enums.length : Int) ≤ id then
        match decodeString ts with
        | none => none
        | some (s, ts) =>
          some (setSlot { d with enums := d.enums ++ [s] } o i (.data (env.fromText f.dataType s)), ts)
      else
        match item d.enums id with
        | none => none
        | some s => some (setSlot d o i (.data (env.fromText f.dataType s)), ts)
  | .basic t =>
    match ts with
    | .val t' v :: ts => if t = t' then some (setSlot d o i (.data v), ts) else none
    | _ => none

/-- the feature data of an ID, `newFeatureData` (ecore/binarydecoder.go 256-263, 602-621) -/
def featureOf (env : Env D) (d : Dec D) (q k c i : Nat) (ts : List (Tok D)) : Option (Feature × Dec D × List (Tok D)) :=
  if (env.features c).length ≤ i then none
  else
    match d.featAt q k i with
    | some f => some (f, d, ts)
    | none =>
      match decodeString ts with
      | none => none
      | some (name, ts) =>
        match env.findFeature c name with
        | none => none
        | some f =>
          some (f, { d with
            featAt := fun q' k' i' => if q' = q ∧ k' = k ∧ i' = i then some f else d.featAt q' k' i' }, ts)

/-- the loop of ecore/binarydecoder.go 255-273; `id` is the number read last (`featureID` + 1) -/
def decodeFeatures (env : Env D) (dec : Dec D → List (Tok D) → Option (Option Nat × Dec D × List (Tok D))) (o q k c : Nat) :
    Nat → Int → Dec D → List (Tok D) → Option (Dec D × List (Tok D))
  | 0, _, _, _ => none
  | n + 1, id, d, ts =>
    if id = 0 then some (d, ts)
    else if id < 0 then none
    else
      match featureOf env d q k c (id - 1).toNat ts with
      | none => none
      | some (f, d, ts) =>
        match decodeValue env dec d o (id - 1).toNat f ts with
        | none => none
        | some (d, ts) =>
          match decodeInt ts with
          | none => none
          | some (id, ts) => decodeFeatures env dec o q k c n id d ts

/-- the proxy URI (ecore/binarydecoder.go 214-235); the number after it -/
def decodeProxy (env : Env D) (id : Int) (d : Dec D) (ts : List (Tok D)) :
    Option (Option URI × Int × Dec D × List (Tok D)) :=
  if id = -2 then
    match decodeURI env d ts with
    | none => none
    | some (u, d, ts) =>
      match decodeInt ts with
      | none => none
      | some (id, ts) => some (u, id, d, ts)
  else some (none, id, d, ts)

/-- the ID (ecore/binarydecoder.go 237-253); the number after it -/
def decodeID (id : Int) (ts : List (Tok D)) : Option (Option Nat × Int × List (Tok D)) :=
  if id = -1 then
    match ts with
    | .any i :: .int id :: ts => some (some i, id, ts)
    | _ => none
  else some (none, id, ts)

/-- `decodeObject` (ecore/binarydecoder.go 191-280); the first argument bounds the number of the calls.  The URI of a proxy
does not contain objects, thus it is read before the object is created. -/
def decodeObject (env : Env D) : Nat → Dec D → List (Tok D) → Option (Option Nat × Dec D × List (Tok D))
  | 0, _, _ => none
  | n + 1, d, ts =>
    match decodeInt ts with
    | none => none
    | some (id, ts) =>
      if id = -1 then some (none, d, ts)
      else if (d.objs.length : Int) ≤ id then
        match decodeClass env d ts with
        | none => none
        | some ((q, k, c), d, ts) =>
          match decodeInt ts with
          | none => none
          | some (id, ts) =>
            match decodeProxy env id d ts with
            | none => none
            | some (u, id, d, ts) =>
              match decodeID id ts with
              | none => none
              | some (i, id, ts) =>
                let o := d.objs.length
                match decodeFeatures env (decodeObject env n) o q k c n id
                    { d with objs := d.objs ++ [{ cls := c, proxy := u, id := i }] } ts with
                | none => none
                | some (d, ts) => some (some o, d, ts)
      else if id < 0 then none
      else some (some id.toNat, d, ts)

/-- `DecodeResource` (ecore/binarydecoder.go 69-103): contents of the resource and objects -/
def decodeResource (env : Env D) (ts : List (Tok D)) : Option (List (Option Nat) × List (Copy D)) :=
  match ts with
  | .bytes sig :: .int version :: .int size :: ts =>
    if sig = binarySignature ∧ version = binaryVersion ∧ 0 ≤ size then
      (decodeObjects (decodeObject env (ts.length + 1)) size.toNat {} ts).map fun r => (r.1, r.2.1.objs)
    else none
  | _ => none

/-- `DecodeObject` (ecore/binarydecoder.go 105-113): the object and the objects created with it -/
def decodeRoot (env : Env D) (ts : List (Tok D)) : Option (Option Nat × List (Copy D)) :=
  match ts with
  | .bytes sig :: .int version :: ts =>
    if sig = binarySignature ∧ version = binaryVersion then
      (decodeObject env (ts.length + 1) {} ts).map fun r => (r.1, r.2.1.objs)
    else none
  | _ => none

end Verif.Binary
