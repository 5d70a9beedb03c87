import Verif.Model.Notify
/-
Model of the derived lists of a class: caches, invalidation through the sub class links, feature and operation IDs, overrides
(ecore/eclass_ext.go, ecore/eoperation_ext.go:24-41).

Classes, features and operations are numbers. A call which tries to lock a mutex its own goroutine already holds never returns; this is the
value `none`, as is a recursion deeper than the fuel.
-/
namespace Verif.EClass
open Verif.EList Verif.Notify

/-- What a feature is. `container`: the opposite is a containment reference (ecore/ereference_ext.go:25). -/
inductive Kind where
  | attr (isID : Bool)
  | ref (containment container derived : Bool)
  deriving DecidableEq, Repr

def Kind.isAttr : Kind → Bool
  | .attr _ => true
  | _ => false

def Kind.isRef : Kind → Bool
  | .ref .. => true
  | _ => false

def Kind.isID : Kind → Bool
  | .attr b => b
  | _ => false

def Kind.isContainment : Kind → Bool
  | .ref c _ _ => c
  | _ => false

def Kind.isCross : Kind → Bool
  | .ref c k _ => !c && !k
  | _ => false

def Kind.isDerived : Kind → Bool
  | .ref _ _ d => d
  | _ => false

/-- The cached lists `eAllSuperTypes`, `eAllStructuralFeatures`, `eAllAttributes`, `eAllReferences`, `eAllOperations`, `eAllContainments`,
`eAllCrossReferences`. -/
inductive Cache where
  | supers | feats | attrs | refs | ops | conts | cross
  deriving DecidableEq, Repr

/-- All the classes (ecore/eclass_ext.go:15-22, ecore/eclass_impl.go). -/
structure W where
  supers : Nat → List Nat := fun _ => []
  feats : Nat → List Nat := fun _ => []
  opers : Nat → List Nat := fun _ => []
  kind : Nat → Kind := fun _ => .attr false
  /-- names of the features -/
  name : Nat → String := fun _ => ""
  /-- a class which is a proxy and the class it resolves to -/
  proxy : Nat → Option Nat := fun _ => none
  /-- `subClasses` -/
  subs : Nat → List Nat := fun _ => []
  cache : Cache → Nat → Option (List Nat) := fun _ _ => none
  /-- `eAttributes`, `eReferences`, `eIDAttribute`, written along with the caches of all attributes and all references -/
  ownAttrs : Nat → List Nat := fun _ => []
  ownRefs : Nat → List Nat := fun _ => []
  idAttr : Nat → Option Nat := fun _ => none
  /-- `eContainmentFeatures` and `eCrossReferenceFeatures` -/
  subset : Nat → Option (List Nat × List Nat) := fun _ => none
  nameMap : Nat → Option (List (String × Nat)) := fun _ => none
  overrides : Nat → Option (List (Nat × Nat)) := fun _ => none
  featureID : Nat → Int := fun _ => -1
  operationID : Nat → Int := fun _ => -1

/-- Assignment to an entry. -/
def upd {α : Type} (f : Nat → α) (c : Nat) (v : α) : Nat → α := fun i => if i = c then v else f i

def setCache (w : W) (k : Cache) (c : Nat) (l : List Nat) : W :=
  { w with cache := fun k' d => if k' = k ∧ d = c then some l else w.cache k' d }

/-- IDs given in order from `i` on. -/
def number (ids : Nat → Int) : Int → List Nat → Nat → Int
  | _, [] => ids
  | i, f :: fs => number (upd ids f i) (i + 1) fs

/-! ### The recursive lists -/

/-- One of the lists which are computed from those of the super types. -/
structure K where
  name : Cache
  /-- what a super type adds, given its own list -/
  contrib : Nat → List Nat → List Nat
  /-- what the class itself adds -/
  own : W → Nat → List Nat
  /-- assignments before the computation -/
  start : W → Nat → W
  /-- assignments after it, given the inherited part -/
  put : W → Nat → List Nat → W

/-- ecore/eclass_ext.go:406-419. -/
def kSupers : K where
  name := .supers
  contrib := fun s l => l ++ [s]
  own := fun _ _ => []
  start := fun w _ => w
  put := fun w c inh => setCache w .supers c (inh ++ [])

/-- ecore/eclass_ext.go:381-404. -/
def kFeats : K where
  name := .feats
  contrib := fun _ l => l
  own := fun w c => w.feats c
  start := fun w c => { w with subset := upd w.subset c none, nameMap := upd w.nameMap c none }
  put := fun w c inh =>
    setCache { w with featureID := number w.featureID inh.length (w.feats c) } .feats c (inh ++ w.feats c)

/-- ecore/eclass_ext.go:265-298. -/
def kAttrs : K where
  name := .attrs
  contrib := fun _ l => l
  own := fun w c => (w.feats c).filter (fun f => (w.kind f).isAttr)
  start := fun w _ => w
  put := fun w c inh =>
    let attributes := (w.feats c).filter (fun f => (w.kind f).isAttr)
    setCache { w with ownAttrs := upd w.ownAttrs c attributes,
                      idAttr := upd w.idAttr c ((inh ++ attributes).find? (fun f => (w.kind f).isID)) } .attrs c (inh ++ attributes)

/-- ecore/eclass_ext.go:300-322. -/
def kRefs : K where
  name := .refs
  contrib := fun _ l => l
  own := fun w c => (w.feats c).filter (fun f => (w.kind f).isRef)
  start := fun w _ => w
  put := fun w c inh =>
    let references := (w.feats c).filter (fun f => (w.kind f).isRef)
    setCache { w with ownRefs := upd w.ownRefs c references } .refs c (inh ++ references)

/-- ecore/eclass_ext.go:356-379. -/
def kOps : K where
  name := .ops
  contrib := fun _ l => l
  own := fun w c => w.opers c
  start := fun w c => { w with overrides := upd w.overrides c none }
  put := fun w c inh =>
    setCache { w with operationID := number w.operationID inh.length (w.opers c) } .ops c (inh ++ w.opers c)

/-- The five recursive lists. -/
inductive Derived where
  | supers | feats | attrs | refs | ops
  deriving DecidableEq, Repr

def kOf : Derived → K
  | .supers => kSupers
  | .feats => kFeats
  | .attrs => kAttrs
  | .refs => kRefs
  | .ops => kOps

/-- Loop over the super types. -/
def gather (f : W → Nat → Option (W × List Nat)) : W → List Nat → Option (W × List Nat)
  | w, [] => some (w, [])
  | w, s :: ss =>
    match f w s with
    | none => none
    | some (w, l) =>
      match gather f w ss with
      | none => none
      | some (w, l') => some (w, l ++ l')

/-- `GetEAll...`: common shape of the five functions above. `held` are the classes whose mutex the goroutine holds. While the loop runs over
`GetESuperTypes()` with the mutex held, a super type which is a proxy is resolved, which sends a RESOLVE notification to the class's own adapter
(ecore/basiceobjectlist.go:95-111), which locks the mutex again (ecore/eclass_ext.go:105, 437). -/
def compute (k : K) : Nat → List Nat → W → Nat → Option (W × List Nat)
  | 0, _, _, _ => none
  | n + 1, held, w, c =>
    if c ∈ held then none
    else match w.cache k.name c with
    | some l => some (w, l)
    | none =>
      if (w.supers c).any (fun s => (w.proxy s).isSome) then none
      else match gather (fun w s => (compute k n (c :: held) w s).map fun p => (p.1, k.contrib s p.2)) (k.start w c) (w.supers c) with
      | none => none
      | some (w, inh) => some (k.put w c inh, inh ++ k.own w c)

/-! ### The other queries -/

/-- ecore/eclass_ext.go:324-338. -/
def getAllContainments (n : Nat) (w : W) (c : Nat) : Option (W × List Nat) :=
  match compute kRefs n [] w c with
  | none => none
  | some (w, refs) =>
    match w.cache .conts c with
    | some l => some (w, l)
    | none =>
      let l := refs.filter (fun f => (w.kind f).isContainment)
      some (setCache w .conts c l, l)

/-- ecore/eclass_ext.go:340-354. -/
def getAllCrossReferences (n : Nat) (w : W) (c : Nat) : Option (W × List Nat) :=
  match compute kRefs n [] w c with
  | none => none
  | some (w, refs) =>
    match w.cache .cross c with
    | some l => some (w, l)
    | none =>
      let l := refs.filter (fun f => (w.kind f).isCross)
      some (setCache w .cross c l, l)

/-- ecore/eclass_ext.go:230-263: containment and cross reference features of the class itself. -/
def getSubset (n : Nat) (w : W) (c : Nat) : Option (W × (List Nat × List Nat)) :=
  match compute kFeats n [] w c with
  | none => none
  | some (w, _) =>
    match w.subset c with
    | some x => some (w, x)
    | none =>
      let x := ((w.feats c).filter (fun f => (w.kind f).isContainment && !(w.kind f).isDerived),
        (w.feats c).filter (fun f => (w.kind f).isCross && !(w.kind f).isDerived))
      some ({ w with subset := upd w.subset c (some x) }, x)

/-- ecore/eclass_ext.go:138-156; the map is an association list with the latest assignment first. -/
def getFromName (n : Nat) (w : W) (c : Nat) (name : String) : Option (W × Option Nat) :=
  match compute kFeats n [] w c with
  | none => none
  | some (w, features) =>
    match w.nameMap c with
    | some m => some (w, m.lookup name)
    | none =>
      let m := (features.map fun f => (w.name f, f)).reverse
      some ({ w with nameMap := upd w.nameMap c (some m) }, m.lookup name)

/-- ecore/eclass_ext.go:122-124. -/
def isSuperTypeOf (n : Nat) (held : List Nat) (w : W) (c someClass : Nat) : Option (W × Bool) :=
  if someClass = c then some (w, true)
  else (compute kSupers n held w someClass).map fun p => (p.1, p.2.contains c)

/-- ecore/eclass_ext.go:130-136. -/
def getFeature (n : Nat) (w : W) (c : Nat) (id : Int) : Option (W × Option Nat) :=
  (compute kFeats n [] w c).map fun p => (p.1, if 0 ≤ id ∧ id < (p.2.length : Int) then p.2[id.toNat]? else none)

/-- The loop of ecore/eclass_ext.go:162-166. -/
def scan (l : List Nat) (f : Nat) (i : Nat) : Int :=
  if h : i < l.length then (if l[i] = f then (i : Int) else scan l f (i + 1)) else -1
termination_by l.length - i

/-- ecore/eclass_ext.go:158-169. A negative ID other than -1 cannot occur (the model answers -1). -/
def getFeatureID (n : Nat) (w : W) (c f : Nat) : Option (W × Int) :=
  (compute kFeats n [] w c).map fun p => (p.1, if 0 ≤ p.1.featureID f then scan p.2 f (p.1.featureID f).toNat else -1)

/-- ecore/eclass_ext.go:183-194. -/
def getOperationID (n : Nat) (w : W) (c o : Nat) : Option (W × Int) :=
  (compute kOps n [] w c).map fun p => (p.1, if 0 ≤ p.1.operationID o then scan p.2 o (p.1.operationID o).toNat else -1)

/-- Name and types of the parameters of an operation, and its class. -/
structure Sig where
  cls : Nat
  name : String
  params : List Nat
  deriving DecidableEq, Repr

/-- ecore/eoperation_ext.go:24-41: `o.IsOverrideOf(other)`. -/
def isOverrideOf (n : Nat) (held : List Nat) (sig : Nat → Sig) (w : W) (o other : Nat) : Option (W × Bool) :=
  (isSuperTypeOf n held w (sig other).cls (sig o).cls).map fun p =>
    (p.1, p.2 && (sig other).name == (sig o).name && (sig o).params == (sig other).params)

/-- The inner loop of ecore/eclass_ext.go:209-215, `j` running down to `i`. -/
def overridesOf (n : Nat) (held : List Nat) (sig : Nat → Sig) (oi : Nat) :
    List Nat → W → List (Nat × Nat) → Option (W × List (Nat × Nat))
  | [], w, m => some (w, m)
  | oj :: js, w, m =>
    match isOverrideOf n held sig w oj oi with
    | none => none
    | some (w, b) => overridesOf n held sig oi js w (if b then (oi, oj) :: m else m)

/-- The loops of ecore/eclass_ext.go:208-216 over the operations from `i` on. -/
def overridesFrom (n : Nat) (held : List Nat) (sig : Nat → Sig) : List Nat → W → List (Nat × Nat) → Option (W × List (Nat × Nat))
  | [], w, m => some (w, m)
  | oi :: os, w, m =>
    match overridesOf n held sig oi os.reverse w m with
    | none => none
    | some (w, m) => overridesFrom n held sig os w m

/-- ecore/eclass_ext.go:196-220; the mutex of the class is held while the map is built. -/
def getOverride (n : Nat) (sig : Nat → Sig) (w : W) (c o : Nat) : Option (W × Option Nat) :=
  match compute kOps n [] w c with
  | none => none
  | some (w, operations) =>
    match w.overrides c with
    | some m => some (w, m.lookup o)
    | none =>
      match overridesFrom n [c] sig operations w [] with
      | none => none
      | some (w, m) => some ({ w with overrides := upd w.overrides c (some m) }, m.lookup o)

/-! ### Modifications -/

/-- Which list of a class was modified. -/
inductive Mod where
  | feats | opers | supers
  deriving DecidableEq, Repr

/-- ecore/eclass_ext.go:439-463 (the cases EATTRIBUTES and EREFERENCES are not raised by any list). -/
def resets : Mod → Cache → Bool
  | .feats, .attrs => true
  | .feats, .feats => true
  | .feats, .refs => true
  | .feats, .conts => true
  | .opers, .ops => true
  | .opers, .conts => true
  | .supers, .supers => true
  | .supers, .attrs => true
  | .supers, .ops => true
  | .supers, .feats => true
  | .supers, .refs => true
  | .supers, .conts => true
  | _, _ => false

def reset (m : Mod) (w : W) (c : Nat) : W :=
  { w with cache := fun k d => if d = c ∧ resets m k = true then none else w.cache k d }

/-- Loop over the sub classes. -/
def modEach (f : W → Nat → Option W) : W → List Nat → Option W
  | w, [] => some w
  | w, s :: ss =>
    match f w s with
    | none => none
    | some w => modEach f w ss

/-- ecore/eclass_ext.go:437-468. -/
def setModified (m : Mod) : Nat → List Nat → W → Nat → Option W
  | 0, _, _, _ => none
  | n + 1, held, w, c =>
    if c ∈ held then none
    else modEach (setModified m n (c :: held)) (reset m w c) (w.subs c)

/-- ecore/eclass_ext.go:47-54, 78-86, 92-99: the sub class forgotten by a former super type. -/
def unlink (c : Nat) (w : W) (s : Nat) : W := { w with subs := upd w.subs s ((w.subs s).erase c) }

/-- ecore/eclass_ext.go:56-60, 62-66, 71-74. -/
def link (c : Nat) (w : W) (s : Nat) : W := { w with subs := upd w.subs s (w.subs s ++ [c]) }

/-- ecore/eclass_ext.go:41-103: effect of a notification of the super types of `c` on the sub classes. -/
def subsOn (c : Nat) (w : W) (n : Notif Nat) : W :=
  match n.event with
  | .set | .resolve =>
    let w := match n.old with | .elem o => unlink c w o | _ => w
    match n.new with | .elem x => link c w x | _ => w
  | .add => match n.new with | .elem x => link c w x | _ => w
  | .addMany => match n.new with | .elems l => l.foldl (link c) w | _ => w
  | .remove => match n.old with | .elem o => unlink c w o | _ => w
  | .removeMany => match n.old with | .elems l => l.foldl (unlink c) w | _ => w
  | _ => w

/-- ecore/eclass_ext.go:35-107. -/
def notified (n : Nat) (m : Mod) (c : Nat) (w : W) : List (Notif Nat) → Option W
  | [] => some w
  | x :: xs =>
    let w := if m = .supers then subsOn c w x else w
    match setModified m n [] w c with
    | none => none
    | some w => notified n m c w xs

/-- The three lists of a class are unique lists of which the class is the notifier; its own adapter is always there
(ecore/eclass_ext.go:116-120), so notifications are required. -/
def listCfg (c : Nat) : NCfg := { cfg := { unique := true, iter := .snapshot }, notifier := c }

/-- The programs. Calls on the list of super types while it contains proxies are modelled only by `resolveSupers` (reading the list, which
resolves the proxies one after the other: ecore/basiceobjectlist.go:82-111). Moving a feature or operation from a class to another one is its
removal from the first one followed by its addition to the second one. -/
inductive Op where
  | read (k : Derived) (c : Nat)
  | containments (c : Nat)
  | crossReferences (c : Nat)
  | subset (c : Nat)
  | fromName (c : Nat) (name : String)
  | feats (c : Nat) (op : NOp Nat)
  | opers (c : Nat) (op : NOp Nat)
  | supers (c : Nat) (op : NOp Nat)
  | resolveSuper (c i : Nat)
  | rename (f : Nat) (name : String)
  | setKind (f : Nat) (kind : Kind)

def step (n : Nat) (w : W) : Op → Option W
  | .read k c => (compute (kOf k) n [] w c).map (·.1)
  | .containments c => (getAllContainments n w c).map (·.1)
  | .crossReferences c => (getAllCrossReferences n w c).map (·.1)
  | .subset c => (getSubset n w c).map (·.1)
  | .fromName c name => (getFromName n w c name).map (·.1)
  | .feats c op =>
    let (r, ns) := nstep (listCfg c) (w.feats c) op
    notified n .feats c { w with feats := upd w.feats c r.data } ns
  | .opers c op =>
    let (r, ns) := nstep (listCfg c) (w.opers c) op
    notified n .opers c { w with opers := upd w.opers c r.data } ns
  | .supers c op =>
    let (r, ns) := nstep (listCfg c) (w.supers c) op
    notified n .supers c { w with supers := upd w.supers c r.data } ns
  | .resolveSuper c i =>
    match (w.supers c)[i]? with
    | none => some w
    | some p =>
      match w.proxy p with
      | none => some w
      | some r =>
        if r = p then some w
        else notified n .supers c { w with supers := upd w.supers c ((w.supers c).set i r) }
          [⟨some c, 0, .resolve, .elem p, .elem r, i⟩]
  | .rename f name => some { w with name := upd w.name f name }
  | .setKind f kind => some { w with kind := upd w.kind f kind }

def run (n : Nat) (w : W) : List Op → Option W
  | [] => some w
  | op :: ops =>
    match step n w op with
    | none => none
    | some w => run n w ops

end Verif.EClass
