/-
Model of the package registry (ecore/epackageregistry_impl.go) and of the codec registry (ecore/ecodecregistry_impl.go),
each with its chain of delegates.
-/
namespace Verif.Registry

/-- A Go map from strings. -/
abbrev GoMap (β : Type) := String → Option β

/-- `m[k] = v`, or `delete(m, k)` for `none`. -/
def upd {β : Type} (m : GoMap β) (k : String) (v : Option β) : GoMap β := fun x => if x = k then v else m x

/-- What `packages` holds for a URI (ecore/epackageregistry_impl.go:12-15): a package (possibly a nil one) or a supplier. -/
inductive Entry where
  | pack (p : Option Nat)
  | supplier (f : Nat)
  deriving DecidableEq, Repr

/-- The program around: namespace URI and factory of each package, and what each supplier function returns. -/
structure Env where
  nsURI : Nat → String
  factory : Nat → Option Nat
  supply : Nat → Option Nat

/-- Calls on one registry. -/
inductive Op where
  | registerPackage (p : Nat)
  | unregisterPackage (p : Nat)
  | putPackage (uri : String) (p : Option Nat)
  | putSupplier (uri : String) (f : Nat)
  | remove (uri : String)
  deriving DecidableEq, Repr

/-- ecore/epackageregistry_impl.go:32-50. -/
def step (env : Env) (m : GoMap Entry) : Op → GoMap Entry
  | .registerPackage p => upd m (env.nsURI p) (some (.pack (some p)))
  | .unregisterPackage p => upd m (env.nsURI p) none
  | .putPackage uri p => upd m uri (some (.pack p))
  | .putSupplier uri f => upd m uri (some (.supplier f))
  | .remove uri => upd m uri none

/-- A registry followed by its delegates (ecore/epackageregistry_impl.go:24-30). -/
abbrev Chain := List (GoMap Entry)

/-- A call on the registry at depth `i` of the chain. -/
def stepAt (env : Env) (c : Chain) (i : Nat) (op : Op) : Chain := c.modify i (fun m => step env m op)

/-- The chain after a history of calls. -/
def run (env : Env) (c : Chain) : List (Nat × Op) → Chain
  | [] => c
  | (i, op) :: h => run env (stepAt env c i op) h

/-- ecore/epackageregistry_impl.go:52-61. -/
def doGetPackage (env : Env) (m : GoMap Entry) (uri : String) : Option Nat :=
  match m uri with
  | some (.pack (some p)) => some p
  | some (.pack none) => none
  | some (.supplier f) => env.supply f
  | none => none

/-- ecore/epackageregistry_impl.go:63-70. -/
def getPackage (env : Env) : Chain → String → Option Nat
  | [], _ => none
  | m :: delegate, uri =>
    match doGetPackage env m uri with
    | some p => some p
    | none => getPackage env delegate uri

/-- ecore/epackageregistry_impl.go:72-79. -/
def getFactory (env : Env) : Chain → String → Option Nat
  | [], _ => none
  | m :: delegate, uri =>
    match doGetPackage env m uri with
    | some p => env.factory p
    | none => getFactory env delegate uri

/-! ### Codecs -/

/-- ecore/ecodecregistry_impl.go:14-18. A map may hold the nil codec (`some none`). -/
structure Codecs where
  protocol : GoMap (Option Nat)
  extension : GoMap (Option Nat)

/-- Calls changing the maps (obtained by `GetProtocolToCodecMap`, `GetExtensionToCodecMap`, lines 56-62). -/
inductive COp where
  | setProtocol (scheme : String) (c : Option (Option Nat))
  | setExtension (ext : String) (c : Option (Option Nat))
  deriving DecidableEq, Repr

/-- Writing to or deleting from the maps. -/
def cstep (r : Codecs) : COp → Codecs
  | .setProtocol s c => { r with protocol := upd r.protocol s c }
  | .setExtension s c => { r with extension := upd r.extension s c }

/-- `DEFAULT_EXTENSION` (ecore/ecodecregistry.go). -/
def defaultExtension : String := "*"

/-- `strings.LastIndex(p, ".")` and `p[ndx+1:]`: what follows the last dot, if there is a dot (paths are lists of
characters here). -/
def extensionOf (p : List Char) : Option (List Char) :=
  if '.' ∈ p then some (p.reverse.takeWhile (· != '.')).reverse else none

/-- ecore/ecodecregistry_impl.go:35-54 on a URI with the given scheme and path. -/
def getCodec : List Codecs → String → List Char → Option Nat
  | [], _, _ => none
  | r :: delegate, scheme, path =>
    match r.protocol scheme with
    | some f => f
    | none =>
      let byExt := match extensionOf path with
        | some ext => r.extension (String.ofList ext)
        | none => none
      match byExt with
      | some f => f
      | none =>
        match r.extension defaultExtension with
        | some f => f
        | none => getCodec delegate scheme path

end Verif.Registry
