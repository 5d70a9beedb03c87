/-!
# Paths as segments: what URI normalisation should compute

A path is read as a number of leading slashes and a list of non empty segments, each with the number of slashes which follow it.
-/

namespace Verif.Spec.Path

/-- A segment and the number of slashes behind it. -/
abbrev Tok := List Char × Nat

/-- Reads a path: number of leading slashes and segments. -/
def parse : List Char → Nat × List Tok
  | [] => (0, [])
  | c :: cs =>
    match parse cs with
    | (k, ts) =>
      if c = '/' then (k + 1, ts)
      else if 0 < k then (0, ([c], k) :: ts)
      else match ts with
        | [] => (0, [([c], 0)])
        | (s, j) :: ts => (0, (c :: s, j) :: ts)

/-- The non empty segments of a path. -/
def segments (path : List Char) : List (List Char) := (parse path).2.map (·.1)

/-- Writes segments back as a path. -/
def render (k : Nat) (ts : List Tok) : List Char :=
  List.replicate k '/' ++ ts.flatMap fun t => t.1 ++ List.replicate t.2 '/'

def dot : List Char := ['.']
def dotdot : List Char := ['.', '.']

/-- Resolution of the dot segments, with the kept elements in front as a stack: "." disappears, ".." removes the segment before
it unless there is none or this is a ".." which had to be kept. -/
def resolveOnto {α : Type} (seg : α → List Char) : List α → List α → List α
  | stack, [] => stack.reverse
  | stack, x :: xs =>
    if seg x = dot then resolveOnto seg stack xs
    else if seg x = dotdot then
      match stack with
      | [] => resolveOnto seg [x] xs
      | y :: ys => if seg y = dotdot then resolveOnto seg (x :: y :: ys) xs else resolveOnto seg ys xs
    else resolveOnto seg (x :: stack) xs

/-- Resolution of the dot segments of a list of segments. -/
def resolve (l : List (List Char)) : List (List Char) := resolveOnto id [] l

/-- Collapses repeated slashes. -/
def single (t : Tok) : Tok := (t.1, min t.2 1)

/-- The normal form of a path: dot segments resolved, slashes collapsed. A relative path whose new first segment has a colon
gets a leading "./", so that this segment cannot be read as a scheme. -/
def normal (path : List Char) : List Char :=
  match parse path with
  | (k, ts) =>
    let kept := resolveOnto (fun (x : Tok × Nat) => x.1.1) [] ts.zipIdx
    let guard : List Char :=
      match kept with
      | (t, i) :: _ => if k = 0 ∧ i ≠ 0 ∧ ':' ∈ t.1 then ['.', '/'] else []
      | [] => []
    guard ++ render (min k 1) (kept.map fun x => single x.1)

/-- Is the path absolute. -/
def isAbs (path : List Char) : Bool := path.head? == some '/'

end Verif.Spec.Path
