/-!
# Namespace prefixes when saving and loading XML
-/

namespace Verif.XMLPrefix

/-- A Go map with string keys; `none` is absent. -/
abbrev Map (β : Type) := String → Option β

/-- map update -/
def put {α β : Type} [DecidableEq α] (m : α → β) (k : α) (v : β) : α → β := fun x => if x = k then v else m x

/-- `nsPrefix+"_"+fmt.Sprintf("%d", index)` (ecore/xmlencoder.go 722, 725, ecore/xmldecoder.go 286, 289) -/
def numbered (p : String) (index : Nat) : String := p ++ "_" ++ toString index

/-- The loop `for _, exists = m[p+"_"+index]; exists; { index++ }` (ecore/xmlencoder.go 721-724,
ecore/xmldecoder.go 285-288): the map is read once, before the first test; `exists` never changes.
`none`: still looping after as many turns as given. -/
def nextIndex : Nat → Bool → Nat → Option Nat
  | 0, _, _ => none
  | n + 1, exist, index => if exist then nextIndex n exist (index + 1) else some index

/-! ## Saving -/

/-- The members of `XMLEncoder` for prefixes (ecore/xmlencoder.go 57-73).  Packages are numbers. -/
structure Enc where
  packages : Nat → Option String
  uriToPrefixes : String → List String
  prefixesToURI : Map String

/-- ecore/xmlencoder.go 83-85 -/
def Enc.init : Enc := ⟨fun _ => none, fun _ => [], fun _ => none⟩

/-- What a package tells: `GetNsURI` and `GetNsPrefix`. -/
structure World where
  nsURI : Nat → String
  nsPrefix : Nat → String

/-- `getPrefix` (ecore/xmlencoder.go 701-733); `fuel` bounds the loop, `none`: the call still loops -/
def getPrefix (w : World) (fuel : Nat) (s : Enc) (p : Nat) (mustHavePrefix : Bool) : Option (Enc × String) :=
  match s.packages p with
  | some q => some (s, q)
  | none =>
    let nsURI := w.nsURI p
    match (s.uriToPrefixes nsURI).find? (fun q => !mustHavePrefix || q ≠ "") with
    | some q => some ({ s with packages := put s.packages p (some q) }, q)
    | none =>
      let q := w.nsPrefix p
      let q := if q = "" ∧ mustHavePrefix then "_" else q
      let chosen : Option String :=
        match s.prefixesToURI q with
        | some uri =>
          if uri ≠ nsURI then (nextIndex fuel (s.prefixesToURI (numbered q 1)).isSome 1).map (numbered q ·)
          else some q
        | none => some q
      chosen.map fun q =>
        ({ s with prefixesToURI := put s.prefixesToURI q (some nsURI), packages := put s.packages p (some q) }, q)

/-- `xsiNS` and `xsiURI` (ecore/xmldecoder.go 26-27) -/
def xsiNS : String := "xsi"
def xsiURI : String := "http://www.w3.org/2001/XMLSchema-instance"

/-- One entry of `setPrefixToNamespace` (ecore/xmlencoder.go 735-746); `p` is the package
registered for the namespace. -/
def bind (s : Enc) (pre uri : String) (p : Option Nat) : Enc :=
  { packages := match p with | some p => put s.packages p (some pre) | none => s.packages
    prefixesToURI := put s.prefixesToURI pre (some uri)
    uriToPrefixes := put s.uriToPrefixes uri (s.uriToPrefixes uri ++ [pre]) }

/-- the declaration of `xsi` in `saveTypeAttribute` and `saveDataTypeMany`
(ecore/xmlencoder.go 384-385, 477-478) -/
def declareXsi (s : Enc) : Enc :=
  { s with uriToPrefixes := put s.uriToPrefixes xsiURI [xsiNS], prefixesToURI := put s.prefixesToURI xsiNS (some xsiURI) }

/-- What saving does with prefixes. -/
inductive Use where
  /-- `getElementQName` (ecore/xmlencoder.go 682-692): the name of a class or feature of a package -/
  | name (p : Nat) (mustHavePrefix : Bool)
  /-- `saveTypeAttribute` (ecore/xmlencoder.go 475-479), without the class name -/
  | typeAttribute
  /-- a nil in `saveDataTypeMany` (ecore/xmlencoder.go 380-385) -/
  | nilItem
  /-- `saveNil` (ecore/xmlencoder.go 427-429), which writes `xsi:nil` by `addNil` -/
  | saveNil
deriving DecidableEq, Repr

/-- one use: the state and the prefix written together with the namespace it stands for -/
def use (w : World) (fuel : Nat) (s : Enc) : Use → Option (Enc × String × String)
  | .name p must => (getPrefix w fuel s p must).map fun r => (r.1, r.2, w.nsURI p)
  | .typeAttribute => some (declareXsi s, xsiNS, xsiURI)
  | .nilItem => some (declareXsi s, xsiNS, xsiURI)
  | .saveNil => some (s, xsiNS, xsiURI)

/-- a sequence of uses: the last state and all prefixes written -/
def save (w : World) (fuel : Nat) (s : Enc) : List Use → Option (Enc × List (String × String))
  | [] => some (s, [])
  | u :: us => (use w fuel s u).bind fun r => (save w fuel r.1 us).map fun q => (q.1, r.2 :: q.2)

/-- the prefix map of the root object, put before anything is saved (ecore/xmlencoder.go 135-142) -/
def bindAll (s : Enc) : List (String × String × Option Nat) → Enc
  | [] => s
  | (pre, uri, p) :: bs => bindAll (bind s pre uri p) bs

/-! ## Loading -/

/-- the part of `startPrefixMapping` (ecore/xmldecoder.go 282-293) that records the prefix, with
the name under which it is recorded -/
def startPrefixMapping (fuel : Nat) (m : Map String) (pre uri : String) : Option (Map String × String) :=
  let chosen : Option String :=
    if (m pre).isSome then (nextIndex fuel (m (numbered pre 1)).isSome 1).map (numbered pre ·) else some pre
  chosen.map fun q => (put m q (some uri), q)

/-- the declarations of a document one after the other, with the names under which they are recorded -/
def load (fuel : Nat) (m : Map String) : List (String × String) → Option (Map String × List String)
  | [] => some (m, [])
  | d :: ds => (startPrefixMapping fuel m d.1 d.2).bind fun r =>
      (load fuel r.1 ds).map fun q => (q.1, r.2 :: q.2)

end Verif.XMLPrefix
