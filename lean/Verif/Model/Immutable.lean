/-!
# Immutable lists and maps

`NewImmutableEList` and `NewImmutableEMap` (ecore/immutableEList.go, ecore/immutableemap.go) make collections whose methods never change them.  They keep
the slice of the caller, and `ToArray` and `ToMap` give away what they keep; so the model has the slices of Go: arrays, and slices that are windows on arrays.

Simplified: an element is nil, a number, an entry of a map or a `[]byte` (any value of a type that cannot be compared); the Go map of an immutable map belongs to it, a client
that has called `ToMap` writes into it with `putMap` and `delMap`; the order of a Go map is that of its first writes (no answer but that of `toMap`
depends on it).  A slice variable whose assignment panicked keeps the zero value, the nil slice.
-/

namespace Verif.Immutable

inductive Val where
  | nil
  | num (n : Nat)
  | entry (e : Nat)
  | bytes (l : List Nat)
deriving DecidableEq, Repr

/-- A Go slice: a window of `len` cells from `off` on an array, with capacity `cap`. -/
structure Slice where
  arr : Nat
  off : Nat
  len : Nat
  cap : Nat
deriving DecidableEq, Repr

def nilSlice : Slice := ⟨0, 0, 0, 0⟩

/-- An immutable list, or an immutable map with its Go map: ecore/immutableEList.go 115-118, ecore/immutableemap.go 3-6. -/
structure Obj where
  slice : Slice
  data : Option (List (Val × Val))
deriving DecidableEq, Repr

structure State where
  arrays : List (List Val)
  vars : List Slice
  entries : List (Val × Val)
  objs : List Obj
deriving DecidableEq, Repr

def init : State := ⟨[], [], [], []⟩

/-- The calls that read.  `change` is any of the methods that modify (`Add`, `Set`, `Move`, `Clear`, `Put`, ...). -/
inductive Query where
  | get (i : Int)
  | size
  | empty
  | contains (x : Val)
  | indexOf (x : Val)
  | iterate
  | all (n : Nat)
  | toArray
  | getValue (k : Val)
  | containsKey (k : Val)
  | containsValue (x : Val)
  | toMap
  | change
deriving DecidableEq, Repr

inductive Op where
  | make (vs : List Val) (spare : Nat)
  | write (v i : Nat) (x : Val)
  | append (v : Nat) (x : Val) (spare : Nat)
  | cut (v lo hi : Nat)
  | read (v : Nat)
  | newEntry (k x : Val)
  | setKey (e : Nat) (k : Val)
  | setValue (e : Nat) (x : Val)
  | newList (v : Nat)
  | newMap (v : Nat)
  | ask (l : Nat) (q : Query)
  | putMap (l : Nat) (k x : Val)
  | delMap (l : Nat) (k : Val)
deriving DecidableEq, Repr

inductive Ans where
  | unit
  | val (x : Val)
  | int (i : Int)
  | bool (b : Bool)
  | vals (l : List Val)
  | pairs (l : List (Val × Val))
  | ref (l : Nat)
  | panic
deriving DecidableEq, Repr

/-- the cells of a slice -/
def cells (arrays : List (List Val)) (sl : Slice) : List Val :=
  (((arrays[sl.arr]?).getD []).drop sl.off).take sl.len

/-- `s[i] = x` on the array of the slice, no check -/
def store (arrays : List (List Val)) (a i : Nat) (x : Val) : List (List Val) :=
  arrays.modify a (fun l => l.set i x)

def State.var (s : State) (v : Nat) : Slice := (s.vars[v]?).getD nilSlice

/-- `a == b` on interface values of Go: two values of the same type that cannot be compared panic. -/
def goEq (a b : Val) : Option Bool :=
  match a, b with
  | .bytes _, .bytes _ => none
  | a, b => some (decide (a = b))

/-- a value that can be a key of a Go map -/
def hashable : Val → Bool
  | .bytes _ => false
  | _ => true

/-- `IndexOf`: ecore/immutableEList.go 148-156 -/
def indexOf (x : Val) : List Val → Nat → Option Int
  | [], _ => some (-1)
  | y :: ys, i =>
    match goEq y x with
    | none => none
    | some true => some i
    | some false => indexOf x ys (i + 1)

/-- `Get`: ecore/immutableEList.go 125-131 -/
def get (d : List Val) (i : Int) : Ans :=
  if i < 0 ∨ i ≥ d.length then .panic
  else match d[i.toNat]? with
    | some x => .val x
    | none => .panic

/-- `Next` of the iterator until `HasNext` is false, from a cursor (ecore/elistiterator.go 17-30); `fuel` bounds the calls of `Next` by the size. -/
def iterate (d : List Val) : Nat → Nat → List Val
  | 0, _ => []
  | fuel + 1, cursor =>
    if cursor < d.length then
      match get d cursor with
      | .val x => x :: iterate d fuel (cursor + 1)
      | _ => []
    else []

/-- `All` with a function that stops after `n` values: ecore/immutableEList.go 163-171 -/
def all : List Val → Nat → List Val
  | [], _ => []
  | _ :: _, 0 => []
  | x :: xs, n + 1 => x :: all xs n

/-- `m[k] = x` of Go -/
def mapPut (m : List (Val × Val)) (k x : Val) : List (Val × Val) :=
  match m with
  | [] => [(k, x)]
  | (k', x') :: r => if k' = k then (k', x) :: r else (k', x') :: mapPut r k x

/-- `m[k]` of Go -/
def mapGet (m : List (Val × Val)) (k : Val) : Option Val :=
  match m with
  | [] => none
  | (k', x') :: r => if k' = k then some x' else mapGet r k

/-- `delete(m, k)` of Go -/
def mapDel (m : List (Val × Val)) (k : Val) : List (Val × Val) :=
  m.filter (fun p => !decide (p.1 = k))

/-- `ContainsValue`: ecore/immutableemap.go 34-41 -/
def containsValue (x : Val) : List (Val × Val) → Option Bool
  | [] => some false
  | (_, y) :: r =>
    match goEq y x with
    | none => none
    | some true => some true
    | some false => containsValue x r

/-- The loop of `NewImmutableEMap`, none for a panic (an element that is no entry, a key that cannot be one): ecore/immutableemap.go 15-18 -/
def fill (entries : List (Val × Val)) : List Val → List (Val × Val) → Option (List (Val × Val))
  | [], m => some m
  | .entry e :: r, m =>
    match entries[e]? with
    | some (k, x) => if hashable k then fill entries r (mapPut m k x) else none
    | none => none
  | _ :: _, _ => none

def boolAns : Option Bool → Ans
  | some b => .bool b
  | none => .panic

/-- The reading methods on the elements `d` and the Go map `m` of a map: ecore/immutableEList.go 24-180, ecore/immutableemap.go 22-50.  The methods of maps do not
exist for lists: a call panics. -/
def reply (d : List Val) (m : Option (List (Val × Val))) : Query → Ans
  | .get i => get d i
  | .size => .int d.length
  | .empty => .bool (decide (d.length = 0))
  | .contains x =>
    match indexOf x d 0 with
    | some i => .bool (decide (i ≠ -1))
    | none => .panic
  | .indexOf x =>
    match indexOf x d 0 with
    | some i => .int i
    | none => .panic
  | .iterate => .vals (iterate d d.length 0)
  | .all n => .vals (all d n)
  | .toArray => .vals d
  | .getValue k =>
    match m with
    | some m => if hashable k then .val ((mapGet m k).getD .nil) else .panic
    | none => .panic
  | .containsKey k =>
    match m with
    | some m => if hashable k then .bool (mapGet m k).isSome else .panic
    | none => .panic
  | .containsValue x =>
    match m with
    | some m => boolAns (containsValue x m)
    | none => .panic
  | .toMap =>
    match m with
    | some m => .pairs m
    | none => .panic
  | .change => .panic

/-- `append(s, x)` of Go: in place if the capacity suffices, else in a new array with `spare` cells to spare -/
def goAppend (s : State) (sl : Slice) (x : Val) (spare : Nat) : State :=
  if sl.len < sl.cap then
    { s with arrays := store s.arrays sl.arr (sl.off + sl.len) x, vars := s.vars ++ [{ sl with len := sl.len + 1 }] }
  else
    { s with
      arrays := s.arrays ++ [cells s.arrays sl ++ [x] ++ List.replicate spare .nil]
      vars := s.vars ++ [⟨s.arrays.length, 0, (cells s.arrays sl).length + 1, (cells s.arrays sl).length + 1 + spare⟩] }

/-- One step of a program.  A slice made by `make`, `append`, `cut` or `toArray` is a new variable.  `newList`: ecore/immutableEList.go 120-123;
`newMap`: ecore/immutableemap.go 8-20; `ask … toArray` gives the slice of the list: ecore/immutableEList.go 173-176. -/
def step (s : State) : Op → State × Ans
  | .make vs spare =>
    ({ s with
        arrays := s.arrays ++ [vs ++ List.replicate spare .nil]
        vars := s.vars ++ [⟨s.arrays.length, 0, vs.length, vs.length + spare⟩] }, .unit)
  | .write v i x =>
    if i < (s.var v).len then ({ s with arrays := store s.arrays (s.var v).arr ((s.var v).off + i) x }, .unit)
    else (s, .panic)
  | .append v x spare => (goAppend s (s.var v) x spare, .unit)
  | .cut v lo hi =>
    if lo ≤ hi ∧ hi ≤ (s.var v).cap then
      ({ s with vars := s.vars ++ [⟨(s.var v).arr, (s.var v).off + lo, hi - lo, (s.var v).cap - lo⟩] }, .unit)
    else ({ s with vars := s.vars ++ [nilSlice] }, .panic)
  | .read v => (s, .vals (cells s.arrays (s.var v)))
  | .newEntry k x => ({ s with entries := s.entries ++ [(k, x)] }, .unit)
  | .setKey e k => ({ s with entries := s.entries.modify e (fun p => (k, p.2)) }, .unit)
  | .setValue e x => ({ s with entries := s.entries.modify e (fun p => (p.1, x)) }, .unit)
  | .newList v => ({ s with objs := s.objs ++ [⟨s.var v, none⟩] }, .ref s.objs.length)
  | .newMap v =>
    match fill s.entries (cells s.arrays (s.var v)) [] with
    | some m => ({ s with objs := s.objs ++ [⟨s.var v, some m⟩] }, .ref s.objs.length)
    | none => (s, .panic)
  | .ask l q =>
    match s.objs[l]? with
    | some o =>
      (if q = .toArray then { s with vars := s.vars ++ [o.slice] } else s, reply (cells s.arrays o.slice) o.data q)
    | none => (if q = .toArray then { s with vars := s.vars ++ [nilSlice] } else s, .panic)
  | .putMap l k x =>
    match s.objs[l]? with
    | some ⟨sl, some m⟩ => if hashable k then ({ s with objs := s.objs.set l ⟨sl, some (mapPut m k x)⟩ }, .unit) else (s, .panic)
    | _ => (s, .panic)
  | .delMap l k =>
    match s.objs[l]? with
    | some ⟨sl, some m⟩ => if hashable k then ({ s with objs := s.objs.set l ⟨sl, some (mapDel m k)⟩ }, .unit) else (s, .panic)
    | _ => (s, .panic)

def run (s : State) (ops : List Op) : State := ops.foldl (fun s op => (step s op).1) s

/-- the answer of an operation after a program -/
def answer (ops : List Op) (op : Op) : Ans := (step (run init ops) op).2

end Verif.Immutable
