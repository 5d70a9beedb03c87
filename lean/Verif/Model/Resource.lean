import Verif.Model.Notify
/-
Model of the life cycle of a resource (ecore/eresource_impl.go): contents, loading, unloading.

Not modelled here: the error and warning lists, the resource set, the adapters other than those which observe IsLoaded, and what
`inverseAdd`/`inverseRemove` do to the objects (`ESetResource`, `Attached`, `Detached`).
-/
namespace Verif.Resource
open Verif.EList Verif.Notify

/-- The objects are numbers. A contents list is created each time `GetContents` finds none (`DoUnload` drops the list) and the program may
still hold the former ones: they are numbered by order of creation. -/
structure St where
  lists : Nat → List Nat := fun _ => []
  /-- the field `contents` -/
  current : Option Nat := none
  /-- number of lists created -/
  created : Nat := 0
  loaded : Bool := false
  /-- (old, new) values of the IS_LOADED notifications, in order of delivery (lines 568-579, with an observer) -/
  notes : List (Bool × Bool) := []
  /-- number of times a decoder was run -/
  decodes : Nat := 0

/-- What the contents list is created with (ecore/eresource_impl.go:62-69). -/
def contentsCfg : NCfg := { cfg := { unique := true, iter := .snapshot } }

/-- The flag and the notifications. -/
abbrev Flag := Bool × List (Bool × Bool)

/-- ecore/eresource_impl.go:119-126: `loaded()`. -/
def setLoaded (f : Flag) : Flag := if f.1 = false then (true, f.2 ++ [(false, true)]) else f

/-- ecore/eresource_impl.go:128-135: `unloaded()`. -/
def setUnloaded (f : Flag) : Flag := if f.1 = true then (false, f.2 ++ [(true, false)]) else f

/-- ecore/eresource_impl.go:99-117: the overridden callbacks, `size` being the size of the list when the callback is made. -/
def onCallback (f : Flag) (size : Nat) : CB Nat → Flag
  | .didAdd index _ => if (index : Int) = (size : Int) - 1 then setLoaded f else f
  | .didRemove _ _ => if size = 0 then setUnloaded f else f
  | .didClear _ => setUnloaded f
  | _ => f

/-- Callbacks all made when the list has its final size. -/
def onCallbacks (f : Flag) (size : Nat) : List (CB Nat) → Flag
  | [] => f
  | cb :: cbs => onCallbacks (onCallback f size cb) size cbs

/-- Callbacks of successive removals (`RemoveAll` removes the elements one by one, ecore/basicenotifyinglist.go:322-324). -/
def onRemovals (f : Flag) (size : Nat) : List (CB Nat) → Flag
  | [] => f
  | .didRemove i e :: cbs => onRemovals (onCallback f (size - 1) (.didRemove i e)) (size - 1) cbs
  | _ :: cbs => onRemovals f size cbs

/-- A call on a contents list: new contents and flag. -/
def listCall (data : List Nat) (f : Flag) (op : NOp Nat) : List Nat × Flag :=
  let r := (nstep contentsCfg data op).1
  match op with
  | .op (.removeAll _) => (r.data, onRemovals f data.length r.trace)
  | _ => (r.data, onCallbacks f r.data.length r.trace)

/-- ecore/eresource_impl.go:212-217: the number of the contents list. -/
def getContents (s : St) : St × Nat :=
  match s.current with
  | some h => (s, h)
  | none => ({ s with lists := fun i => if i = s.created then [] else s.lists i,
                      current := some s.created, created := s.created + 1 }, s.created)

/-- A call on the list number `h`. -/
def onList (s : St) (h : Nat) (op : NOp Nat) : St :=
  let (d, f) := listCall (s.lists h) (s.loaded, s.notes) op
  { s with lists := fun i => if i = h then d else s.lists i, loaded := f.1, notes := f.2 }

/-- What a decoder does to the contents. -/
def decode (s : St) : List (NOp Nat) → St
  | [] => s
  | op :: ops =>
    let (s, h) := getContents s
    decode (onList s h op) ops

/-- ecore/eresource_impl.go:423-470. `outcome = none`: no decoder could be created (no URI, no reader, no codec); else the calls the
decoder makes on the contents. The notification is created before the decoding and dispatched after it. -/
def load (s : St) (outcome : Option (List (NOp Nat))) : St :=
  if s.loaded = false then
    match outcome with
    | none => s
    | some ops =>
      let old := s.loaded
      let s := decode { s with loaded := true, decodes := s.decodes + 1 } ops
      { s with notes := s.notes ++ [(old, true)] }
  else s

/-- ecore/eresource_impl.go:476-493. -/
def unload (s : St) : St :=
  if s.loaded = true then { s with loaded := false, current := none, notes := s.notes ++ [(true, false)] } else s

inductive Call where
  | getContents
  | list (h : Nat) (op : NOp Nat)
  | load (outcome : Option (List (NOp Nat)))
  | unload

def step (s : St) : Call → St
  | .getContents => (getContents s).1
  | .list h op => onList s h op
  | .load o => load s o
  | .unload => unload s

def run (s : St) : List Call → St
  | [] => s
  | c :: cs => run (step s c) cs

/-- What `GetContents()` would list. -/
def contents (s : St) : List Nat :=
  match s.current with
  | some h => s.lists h
  | none => []

end Verif.Resource
