import Verif.Model.MapEntries

/-!
# Entries that are in one place

The specification: an entry is in one map or list, or in none.  When it comes into another one it leaves the one it is in.
-/

namespace Verif.MapEntries.Spec

/-- the places in which there are entries, in any order, with their contents; the keys and values of the entries -/
structure State where
  boxes : List (Place × List Nat)
  pairs : List (Nat × Nat)
deriving DecidableEq, Repr

def init : State := ⟨[], []⟩

def State.at (s : State) (p : Place) : List Nat :=
  match s.boxes.find? (fun b => b.1 = p) with
  | some b => b.2
  | none => []

/-- the place an entry is in -/
def State.where? (s : State) (e : Nat) : Option Place := (s.boxes.find? (fun b => e ∈ b.2)).map (·.1)

/-- other contents for a place -/
def State.fill (s : State) (p : Place) (l : List Nat) : State :=
  { s with boxes := (p, l) :: s.boxes.filter (fun b => b.1 ≠ p) }

/-- an entry leaves all places -/
def State.leave (s : State) (e : Nat) : State := { s with boxes := s.boxes.map (fun b => (b.1, b.2.filter (· ≠ e))) }

/-- `e` comes into a place, which has then the contents `l` -/
def State.enter (s : State) (p : Place) (e : Nat) (l : List Nat) : State := (s.leave e).fill p l

def State.keyOf (s : State) (e : Nat) : Nat := ((s.pairs[e]?).getD (0, 0)).1
def State.valueOf (s : State) (e : Nat) : Nat := ((s.pairs[e]?).getD (0, 0)).2

/-- the entry with a key in the map of an owner -/
def State.find (s : State) (o k : Nat) : Option Nat := (s.at ⟨o, true⟩).find? fun e => s.keyOf e = k

def State.step (s : State) : Op → State × Ans
  | .newEntry k x => ({ s with pairs := s.pairs ++ [(k, x)] }, .obj s.pairs.length)
  | .put o k x =>
    match s.find o k with
    | some e => ({ s with pairs := s.pairs.set e (k, x) }, .unit)
    | none => ({ s with pairs := s.pairs ++ [(k, x)] }.fill ⟨o, true⟩ (s.at ⟨o, true⟩ ++ [s.pairs.length]), .unit)
  | .removeKey o k =>
    match s.find o k with
    | some e => (s.leave e, .value (some (s.valueOf e)))
    | none => (s, .value none)
  | .add p e =>
    if e ≥ s.pairs.length then (s, .panic)
    else if e ∈ s.at p then (s, .bool false)
    else (s.enter p e (s.at p ++ [e]), .bool true)
  | .insert p i e =>
    if e ≥ s.pairs.length ∨ i < 0 ∨ i > (s.at p).length then (s, .panic)
    else if e ∈ s.at p then (s, .bool false)
    else (s.enter p e ((s.at p).take i.toNat ++ e :: (s.at p).drop i.toNat), .bool true)
  | .set p i e =>
    if e ≥ s.pairs.length ∨ i < 0 then (s, .panic)
    else match (s.at p)[i.toNat]? with
      | none => (s, .panic)
      | some old =>
        if old = e then (s, .obj e)
        else if e ∈ s.at p then (s, .panic)
        else (s.enter p e ((s.at p).take i.toNat ++ e :: (s.at p).drop (i.toNat + 1)), .obj old)
  | .remove p e => if e ∈ s.at p then (s.leave e, .bool true) else (s, .bool false)
  | .removeAt p i =>
    if i < 0 then (s, .panic)
    else match (s.at p)[i.toNat]? with
      | none => (s, .panic)
      | some e => (s.leave e, .obj e)
  | .clear p => (s.fill p [], .unit)
  | .contents p => (s, .list (s.at p))
  | .container e => (s, .place (s.where? e))
  | .entry e => (s, .pair (s.keyOf e) (s.valueOf e))

def State.run (s : State) : List Op → State × List Ans
  | [] => (s, [])
  | op :: ops => (((s.step op).1.run ops).1, (s.step op).2 :: ((s.step op).1.run ops).2)

/-- The entry that a call brings from somewhere else: it must not be in a map. -/
def State.Allowed (s : State) : Op → Prop
  | .add p e => e ∈ s.at p ∨ ∀ o, s.where? e ≠ some ⟨o, true⟩
  | .insert p _ e => e ∈ s.at p ∨ ∀ o, s.where? e ≠ some ⟨o, true⟩
  | .set p _ e => e ∈ s.at p ∨ ∀ o, s.where? e ≠ some ⟨o, true⟩
  | _ => True

def State.AllAllowed (s : State) : List Op → Prop
  | [] => True
  | op :: ops => s.Allowed op ∧ (s.step op).1.AllAllowed ops

end Verif.MapEntries.Spec
