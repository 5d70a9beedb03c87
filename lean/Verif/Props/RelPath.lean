import Verif.Proofs.RelPath
import Verif.Props.Fragment
/-!
# C71: relative paths lead back
-/

namespace Verif.RelPath
open Verif.Fragment Verif.RelPath.Spec

/-- **C71** (partial): the path of an object relative to another one it is in leads from that one back to the object.
Missing: the object itself (`C71_self_violated`), and the objects that are not properly held (see C26 and C27). -/
theorem C71_relative_partial (W : World) (P : Parents) (a o : Nat) (below : Below W P a o) (ne : o ≠ a) :
    ∃ k : Nat, ∀ n : Nat, k ≤ n → ∃ s : Str, relativePath W P n (some a) o = some s ∧ getObject W a s = .obj o := by
  obtain ⟨k, segs, h1, h2, h3, h4⟩ := relative_spec (anc := some a) (Or.inl rfl) below ne
  refine ⟨k, fun n hn => ⟨_, h4 n hn, ?_⟩⟩
  rw [getObject, split_join 47 segs h1 h2, h3]

/-- **C71** (partial): the URI of an object that is in no resource and has no ID is a fragment; once its root is put in a
resource, as the first object, this fragment leads there to the object.
Missing: the roots (`C71_root_violated`). -/
theorem C71_uri_partial (W : World) (P : Parents) (eid : Nat → Str) (r o : Nat) (below : Below W P r o) (ne : o ≠ r)
    (top : P.container r = none) (noID : eid o = []) :
    ∃ k : Nat, ∀ n : Nat, k ≤ n → ∃ s : Str, freeFragment W P n eid o = some s ∧
      ∀ (R : Resource) (others : List Nat) (m : Nat), R.roots = r :: others → getEObject W R m s = .obj o := by
  obtain ⟨k, segs, h1, h2, h3, h4⟩ := relative_spec (anc := none) (a := r) (Or.inr ⟨rfl, top⟩) below ne
  refine ⟨k, fun n hn => ⟨47 :: 47 :: join 47 segs, by simp [freeFragment, noID, h4 n hn], ?_⟩⟩
  intro R others m hR
  have hs : split 47 (47 :: 47 :: join 47 segs) = [] :: [] :: segs := by
    simp [split, split_join 47 segs h1 h2]
  have hroot : objectForRoot W R m [] = .obj r := by simp [objectForRoot, hR]
  simp [getEObject, hs, objectByPath, hroot, follow_followAll segs r o h3]

/-! ## Examples -/

/-- The containers in the example of C26. -/
def parents : Parents := ⟨(resource (fun _ => []) none).container, (resource (fun _ => []) none).feature⟩

/-- The feature 6 of the class 1 of the package 0. -/
theorem example_below : Below (world kinds) parents 0 6 := by
  have noNumber : ∀ (s : Str), 46 ∉ s → ¬ Numbered s := by
    rintro s h ⟨a, b, rfl, -⟩
    simp at h
  have ad1 : Addressable (world kinds) 0 1 :=
    ⟨by decide, by decide, by decide +kernel, by decide +kernel, Or.inr (noNumber _ (by decide +kernel))⟩
  have ad6 : Addressable (world kinds) 1 6 :=
    ⟨by decide, by decide, by decide +kernel, by decide +kernel, Or.inr (noNumber _ (by decide +kernel))⟩
  have held : ∀ c o : Nat, o ∈ contentsOf c → (contentsOf c).length < 2 ^ 63 → Held (world kinds) c 0 o := fun c o h hl =>
    ⟨by simp [world], (by decide +kernel : ∀ g ∈ [0, 1], (world kinds).fname g = (world kinds).fname 0 → g = 0), by decide +kernel, by simp [world], fun _ => ⟨contentsOf c, by simp [world], h, hl⟩⟩
  refine .step 6 1 ⟨by decide, 0, by decide, held 1 6 (by decide) (by decide), fun _ => ad6⟩ ?_
  exact .child 1 ⟨by decide, 0, by decide, held 0 1 (by decide) (by decide), fun _ => ad1⟩

example : ∃ k : Nat, ∀ n : Nat, k ≤ n → ∃ s : Str, relativePath (world kinds) parents n (some 0) 6 = some s ∧
    getObject (world kinds) 0 s = .obj 6 := C71_relative_partial _ _ 0 6 example_below (by decide)

example : relativePath (world kinds) parents 5 (some 0) 6 = some (bytes "a/%") ∧
    getObject (world kinds) 0 (bytes "a/%") = .obj 6 ∧
    freeFragment (world kinds) parents 5 (fun _ => []) 6 = some (bytes "//a/%") := by decide +kernel

example := C71_uri_partial (world kinds) parents (fun _ => []) 0 6 example_below (by decide) (by decide) rfl

/-! ## What fails -/

/-- Looking up the empty segment panics. -/
theorem forSegment_empty (W : World) (a : Nat) : forSegment W a [] = .panic := by
  simp only [forSegment, forSegmentElem, forSegmentBase]
  split <;> simp

/-- **C71** is violated: the path of an object relative to itself is empty, and looking it up panics, whatever the
object is. -/
theorem C71_self_violated (W : World) (P : Parents) (n a : Nat) :
    relativePath W P n (some a) a = some [] ∧ getObject W a [] = .panic := by
  refine ⟨by simp [relativePath], ?_⟩
  simp [getObject, split, followAll, forSegment_empty]

/-- **C71** is violated: the URI of a root without ID is "//", and looking it up in a resource the root is put in panics. -/
theorem C71_root_violated (W : World) (P : Parents) (eid : Nat → Str) (n m r : Nat) (others : List Nat) (R : Resource)
    (top : P.container r = none) (noID : eid r = []) (hR : R.roots = r :: others) :
    freeFragment W P (n + 1) eid r = some (bytes "//") ∧ getEObject W R m (bytes "//") = .panic := by
  constructor
  · simp [freeFragment, noID, relativePath, climbTo, top, join]
    decide
  · have hb : bytes "//" = [47, 47] := by decide
    have hroot : objectForRoot W R m [] = .obj r := by simp [objectForRoot, hR]
    simp [hb, getEObject, split, objectByPath, hroot, follow, forSegment_empty]

/-- **C71** is violated: a path that leads nowhere is no nil but a panic: looking for the class "b" of a package. -/
theorem C71_missing_violated : forSegment (world kinds) 0 (bytes "b") = .nil ∧
    getObject (world kinds) 0 (bytes "b") = .panic := by decide +kernel

/-- The path relative to an object that is not above panics, as the message says. -/
example : relativePath (world kinds) parents 5 (some 7) 6 = none ∧
    climbTo (world kinds) parents (some 7) 5 6 [] [] = some (0, [bytes "a", bytes "%"]) := by decide +kernel

end Verif.RelPath
