/-
Model of the contents view of an object (ecore/econtentslist.go) on an object that does not change meanwhile.
-/
namespace Verif.EContents

/-- What the view reads from the object for one feature: `EIsSet`, and `EGetResolve(feature, false)`, which is a list for a
many-valued feature and a possibly nil object otherwise. -/
structure Feat (α : Type) where
  isSet : Bool
  value : Option α ⊕ List α

/-- ecore/econtentslist.go:5-10 (`features` and `resolve`; the object is in the features). `res` is proxy
resolution: `EGetResolve(feature, true)` yields `res` of each object and never turns an object into nil. -/
structure L (α : Type) where
  features : List (Feat α)
  resolve : Bool
  res : α → α

variable {α : Type}

/-- The object as the view presents it. -/
def L.see (l : L α) (a : α) : α := if l.resolve then l.res a else a

/-- ecore/econtentslist.go:12-18. `values` is the iterator over a feature list: the objects it has not yielded. -/
structure It (α : Type) where
  next : Option α
  values : Option (List α)
  prepared : Nat
  featureCursor : Nat

/-- ecore/econtentslist.go:157-159. -/
def iterator : It α := ⟨none, none, 0, 0⟩

/-- The loop of ecore/econtentslist.go:40-71, over the features from the cursor on. -/
def scan (l : L α) (cursor : Nat) : List (Feat α) → It α × Bool
  | [] => (⟨none, none, 1, cursor⟩, false)
  | f :: fs =>
    if f.isSet then
      match f.value with
      | .inr (x :: xs) => (⟨some (l.see x), some (xs.map l.see), 2, cursor + 1⟩, true)
      | .inr [] => scan l (cursor + 1) fs
      | .inl (some x) => (⟨some (l.see x), none, 2, cursor + 1⟩, true)
      | .inl none => scan l (cursor + 1) fs
    else scan l (cursor + 1) fs

/-- ecore/econtentslist.go:28-78. -/
def hasNext (l : L α) (it : It α) : It α × Bool :=
  if it.prepared = 2 then (it, true)
  else if it.prepared = 1 then (it, false)
  else
    match it.values with
    | some (x :: xs) => ({ it with next := some x, values := some xs, prepared := 2 }, true)
    | _ => scan l it.featureCursor (l.features.drop it.featureCursor)

/-- ecore/econtentslist.go:20-26; `none` is a panic. -/
def next (l : L α) (it : It α) : It α × Option α :=
  if it.prepared > 1 then ({ it with prepared := 0 }, it.next)
  else
    let (it1, b) := hasNext l it
    if b then ({ it1 with prepared := 0 }, it1.next) else (it1, none)

/-- ecore/econtentslist.go:98-113. -/
def size (l : L α) : Nat :=
  go 0 l.features
where
  go (n : Nat) : List (Feat α) → Nat
    | [] => n
    | f :: fs =>
      if f.isSet then
        match f.value with
        | .inr xs => go (n + xs.length) fs
        | .inl (some _) => go (n + 1) fs
        | .inl none => go n fs
      else go n fs

/-- ecore/econtentslist.go:116-132. -/
def empty (l : L α) : Bool :=
  go l.features
where
  go : List (Feat α) → Bool
    | [] => true
    | f :: fs =>
      if f.isSet then
        match f.value with
        | .inr xs => if !xs.isEmpty then false else go fs
        | .inl (some _) => false
        | .inl none => go fs
      else go fs

/-- The loop `for it := l.Iterator(); it.HasNext(); { f(it.Next()) }` with early exit: `step acc e` returns the result to return
at once (`inr`) or the next accumulator. At most `fuel` rounds are looked at; the outer `none` means that the loop has
not ended by then, the inner `none` is a panic. -/
def loop {σ ρ : Type} (l : L α) (step : σ → α → σ ⊕ ρ) (done : σ → ρ) : Nat → It α → σ → Option (Option ρ)
  | 0, _, _ => none
  | fuel + 1, it, acc =>
    let (it1, b) := hasNext l it
    if b then
      match next l it1 with
      | (_, none) => some none
      | (it2, some e) =>
        match step acc e with
        | .inr r => some (some r)
        | .inl acc' => loop l step done fuel it2 acc'
    else some (some (done acc))

/-- ecore/econtentslist.go:135-142. -/
def contains [DecidableEq α] (l : L α) (elem : α) (fuel : Nat) : Option (Option Bool) :=
  loop l (fun (_ : Unit) e => if e = elem then .inr true else .inl ()) (fun _ => false) fuel iterator ()

/-- ecore/econtentslist.go:145-154. -/
def indexOf [DecidableEq α] (l : L α) (elem : α) (fuel : Nat) : Option (Option Int) :=
  loop l (fun (i : Nat) e => if e = elem then .inr (i : Int) else .inl (i + 1)) (fun _ => -1) fuel iterator 0

/-- ecore/econtentslist.go:173-179 (and `All`, 162-170, for a consumer which accepts everything). -/
def toArray (l : L α) (fuel : Nat) : Option (Option (List α)) :=
  loop l (fun acc e => .inl (acc ++ [e])) (fun acc => acc) fuel iterator []

/-- `it.Next()` repeated `n` times then once more (ecore/econtentslist.go:89-95); `none` is a panic. -/
def getFrom (l : L α) : Nat → It α → Option α
  | 0, it => (next l it).2
  | n + 1, it =>
    match next l it with
    | (_, none) => none
    | (it', some _) => getFrom l n it'

/-- ecore/econtentslist.go:89-95: `for range index` makes no round for a negative index. -/
def get (l : L α) (index : Int) : Option α := getFrom l index.toNat iterator

/-- ecore/econtentslist.go:181-186. -/
def getUnResolvedList (l : L α) : L α := if l.resolve then { l with resolve := false } else l

/-- Calls on an iterator. -/
inductive Call where
  | hasNext
  | next
  deriving DecidableEq, Repr

/-- Answers of calls. -/
inductive Ret (α : Type) where
  | bool (b : Bool)
  | val (a : α)
  | panic
  deriving DecidableEq, Repr

/-- Answers of a sequence of calls. -/
def answers (l : L α) (it : It α) : List Call → List (Ret α)
  | [] => []
  | .hasNext :: cs => .bool (hasNext l it).2 :: answers l (hasNext l it).1 cs
  | .next :: cs =>
    (match (next l it).2 with | some a => .val a | none => .panic) :: answers l (next l it).1 cs

end Verif.EContents
