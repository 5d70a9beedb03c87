/-
`ExtendedMetaData`: the names and namespaces that annotations give to model
elements, and what is remembered of them (extendedmetadata.go).

Model elements are numbers.
-/
namespace Verif.ExtMeta

/-- What a model element is. -/
inductive Kind where
  | package | cls | data | reference | attribute
  deriving DecidableEq, Repr

/-- What is remembered of an element: extendedmetadata.go:25-29 (named element),
74-77 (feature), 43-47 (package).  A Go map is written as the list of its entries. -/
inductive Entry where
  | named (name : String)
  | feature (name : String) (namespace_ : String)
  | package (map : Option (List (String × Nat)))
  deriving DecidableEq, Repr

/-- The model elements, and the memory.  `details` is the details of the annotation
with the source of extended meta data (extendedmetadata.go:13, 172-173), if there is
one; `classifiers` of a package, `references` is `GetEAllReferences` of a class,
`owner` is `GetEContainingClass` of a feature, `package` is `GetEPackage` of a
class. -/
structure State where
  kind : Nat → Kind
  name : Nat → String
  details : Nat → Option (List (String × String))
  classifiers : Nat → List Nat
  references : Nat → List Nat
  owner : Nat → Option Nat
  package : Nat → Option Nat
  nsURI : Nat → String
  memory : Nat → Option Entry

/-- One field of one element is given a value. -/
def upd {α : Type} (f : Nat → α) (i : Nat) (v : α) : Nat → α :=
  fun j => if j = i then v else f j

/-- New elements, new extended meta data: extendedmetadata.go:86-88. -/
def init (kind : Nat → Kind) : State where
  kind := kind
  name := fun _ => ""
  details := fun _ => none
  classifiers := fun _ => []
  references := fun _ => []
  owner := fun _ => none
  package := fun _ => none
  nsURI := fun _ => ""
  memory := fun _ => none

/-- The word for what is not computed yet: extendedmetadata.go:32, 80. -/
def unset : String := "unitialized"

/-- `basicGetName`: extendedmetadata.go:171-178. -/
def basicGetName (s : State) (e : Nat) : String :=
  match s.details e with
  | some d =>
    match d.lookup "name" with
    | some n => n
    | none => s.name e
  | none => s.name e

/-- `basicGetNamespace`: extendedmetadata.go:180-196. -/
def basicGetNamespace (s : State) (f : Nat) : String :=
  match s.details f with
  | some d =>
    match d.lookup "namespace" with
    | some n =>
      if n = "##targetNamespace" then
        match s.owner f with
        | some c =>
          match s.package c with
          | some p => s.nsURI p
          | none => ""
        | none => ""
      else n
    | none => ""
  | none => ""

def isFeature : Kind → Bool
  | .reference => true
  | .attribute => true
  | _ => false

/-- `GetName`: extendedmetadata.go:90-102, 31-36, 130-132.  `none` is the panic of the
type assertion: what is remembered of a package has no name. -/
def getName (s : State) (e : Nat) : Option (State × String) :=
  let entry := match s.memory e with
    | some x => x
    | none => if isFeature (s.kind e) then .feature unset unset else .named unset
  match entry with
  | .package _ => none
  | .named n =>
    let n := if n = unset then basicGetName s e else n
    some ({ s with memory := upd s.memory e (some (.named n)) }, n)
  | .feature n ns =>
    let n := if n = unset then basicGetName s e else n
    some ({ s with memory := upd s.memory e (some (.feature n ns)) }, n)

/-- `GetNamespace`: extendedmetadata.go:104-113, 79-84, 134-136. -/
def getNamespace (s : State) (f : Nat) : Option (State × String) :=
  let entry := match s.memory f with
    | some x => x
    | none => .feature unset unset
  match entry with
  | .feature n ns =>
    let ns := if ns = unset then basicGetNamespace s f else ns
    some ({ s with memory := upd s.memory f (some (.feature n ns)) }, ns)
  | _ => none

/-- Writing an entry of a map. -/
def putMap : List (String × Nat) → String → Nat → List (String × Nat)
  | [], k, c => [(k, c)]
  | (k', c') :: m, k, c => if k' = k then (k, c) :: m else (k', c') :: putMap m k c

/-- The loop over the classifiers: extendedmetadata.go:57-65. -/
def scan (s : State) (n : String) (m : List (String × Nat)) :
    List Nat → Option (State × List (String × Nat) × Option Nat)
  | [] => some (s, m, none)
  | c :: cs =>
    match getName s c with
    | none => none
    | some (s, k) =>
      let m := putMap m k c
      if k = n then some (s, m, some c) else scan s n m cs

/-- `GetType`: extendedmetadata.go:115-128, 49-70. -/
def getType (s : State) (p : Nat) (n : String) : Option (State × Option Nat) :=
  let entry := match s.memory p with
    | some x => x
    | none => .package none
  match entry with
  | .package map =>
    let s := { s with memory := upd s.memory p (some (.package map)) }
    match (match map with | some m => m.lookup n | none => none) with
    | some c => some (s, some c)
    | none =>
      if (match map with | none => true | some m => m.length != (s.classifiers p).length) then
        match scan s n [] (s.classifiers p) with
        | none => none
        | some (s, m, r) => some ({ s with memory := upd s.memory p (some (.package (some m))) }, r)
      else some (s, none)
  | _ => none

/-- `GetDocumentRoot`: extendedmetadata.go:138-144; the type assertion panics when
the classifier is no class, `none` in the second place. -/
def getDocumentRoot (s : State) (p : Nat) : State × Option (Option Nat) :=
  match getType s p "" with
  | none => (s, none)
  | some (s, none) => (s, some none)
  | some (s, some c) => if s.kind c = .cls then (s, some (some c)) else (s, none)

/-- The loop of `GetXMLNSPrefixMapFeature` and `GetXSISchemaLocationMapFeature`:
extendedmetadata.go:146-164. -/
def findReference (s : State) (n : String) : List Nat → Option (State × Option Nat)
  | [] => some (s, none)
  | r :: rs =>
    match getName s r with
    | none => none
    | some (s, k) => if k = n then some (s, some r) else findReference s n rs

/-- The edits of the metamodel, one field at a time. -/
inductive Edit where
  | setName (e : Nat) (n : String)
  | setDetails (e : Nat) (d : Option (List (String × String)))
  | setClassifiers (p : Nat) (l : List Nat)
  | setReferences (c : Nat) (l : List Nat)
  | setOwner (f : Nat) (c : Option Nat)
  | setPackage (c : Nat) (p : Option Nat)
  | setNsURI (p : Nat) (n : String)
  deriving DecidableEq, Repr

inductive Query where
  | name (e : Nat)
  | namespace_ (f : Nat)
  | type (p : Nat) (n : String)
  | documentRoot (p : Nat)
  | xmlnsPrefixMap (c : Nat)
  | xsiSchemaLocationMap (c : Nat)
  deriving DecidableEq, Repr

inductive Answer where
  | text (t : String)
  | element (e : Option Nat)
  | panic
  deriving DecidableEq, Repr

def edit (s : State) : Edit → State
  | .setName e n => { s with name := upd s.name e n }
  | .setDetails e d => { s with details := upd s.details e d }
  | .setClassifiers p l => { s with classifiers := upd s.classifiers p l }
  | .setReferences c l => { s with references := upd s.references c l }
  | .setOwner f c => { s with owner := upd s.owner f c }
  | .setPackage c p => { s with package := upd s.package c p }
  | .setNsURI p n => { s with nsURI := upd s.nsURI p n }

/-- An answer that is a text. -/
def text (s : State) : Option (State × String) → State × Answer
  | none => (s, .panic)
  | some (s, t) => (s, .text t)

/-- An answer that is an element. -/
def element (s : State) : Option (State × Option Nat) → State × Answer
  | none => (s, .panic)
  | some (s, e) => (s, .element e)

/-- The queries.  The panics, other than that of `GetDocumentRoot`, come before
anything is remembered. -/
def query (s : State) : Query → State × Answer
  | .name e => text s (getName s e)
  | .namespace_ f => text s (getNamespace s f)
  | .type p n => element s (getType s p n)
  | .documentRoot p =>
    let r := getDocumentRoot s p
    (r.1, match r.2 with | some e => .element e | none => .panic)
  | .xmlnsPrefixMap c => element s (findReference s "xmlns:prefix" (s.references c))
  | .xsiSchemaLocationMap c => element s (findReference s "xsi:schemaLocation" (s.references c))

inductive Call where
  | edit (e : Edit)
  | query (q : Query)
  deriving DecidableEq, Repr

def step (s : State) : Call → State × Option Answer
  | .edit e => (edit s e, none)
  | .query q => let r := query s q; (r.1, some r.2)

def run (s : State) : List Call → List (Option Answer)
  | [] => []
  | c :: cs => let r := step s c; r.2 :: run r.1 cs

end Verif.ExtMeta
