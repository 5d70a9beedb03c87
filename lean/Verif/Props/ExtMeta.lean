import Verif.Proofs.ExtMeta
/-
C68: Extended names are those of the annotations.

`ExtendedMetaData` tells the XML codec under which names and namespaces elements are
written.  A user edits a metamodel and asks for names, namespaces, types by extended
name, the document root and the two special map features.  Each answer should be the
one of the metamodel at that moment.  It is so as long as nothing is changed that was
asked about, however often the same extended meta data is used; but names and
namespaces are remembered for ever, and a package can not be asked for its name and
for a type.
-/
namespace Verif.ExtMeta
open Verif.ExtMeta.Spec

/-- **C68** (partial).  In any sequence of edits and questions in which no extended
name and no namespace that was asked about changes and no classifier is taken from a
package whose types were asked about (`Careful`), every question is answered rightly.
Classifiers may be added between the questions, and classifiers may have the same
name.  What is missing: the sequences that are not careful. -/
theorem C68_answers_partial (kind : Nat → Kind) (calls : List Call)
    (careful : Careful (start kind) nothing calls) :
    AllRight (start kind) calls (run (init kind) calls) :=
  run_right calls (rel_init kind) careful

section Examples

/-- Element 0 is a package, 1 to 3 are classes, 4 is a data type, 5 to 7 are
references, the others attributes. -/
def kinds (n : Nat) : Kind :=
  if n = 0 then .package else if n < 4 then .cls else if n = 4 then .data
  else if n < 8 then .reference else .attribute

/-- A package with a document root and a class is asked, then extended, then asked
again. -/
def careful : List Call :=
  [.edit (.setNsURI 0 "http://p"), .edit (.setClassifiers 0 [1, 2]),
   .edit (.setPackage 1 (some 0)), .edit (.setName 1 "DocumentRoot"),
   .edit (.setDetails 1 (some [("name", "")])), .edit (.setName 2 "A"),
   .edit (.setReferences 1 [5, 6]), .edit (.setOwner 5 (some 1)),
   .edit (.setDetails 5 (some [("name", "xmlns:prefix")])), .edit (.setName 6 "a"),
   .edit (.setDetails 6 (some [("namespace", "##targetNamespace")])), .edit (.setOwner 6 (some 1)),
   .query (.type 0 "A"), .query (.documentRoot 0), .query (.xmlnsPrefixMap 1),
   .query (.namespace_ 6),
   .edit (.setName 3 "B"), .query (.type 0 "B"), .edit (.setClassifiers 0 [3, 1, 2]),
   .query (.type 0 "B"), .query (.name 2), .query (.name 1), .query (.xsiSchemaLocationMap 1)]

example : Careful (start kinds) nothing careful := by
  simp [Careful, careful, CarefulEdit, CarefulQuery, change, start, nothing, asked, kinds, extName,
    extNamespace, detail, target]
  grind

example : (run (init kinds) careful).filterMap id =
    [.element (some 2), .element (some 1), .element (some 5), .text "http://p", .element none,
     .element (some 3), .text "A", .text "", .element none] := by decide

/-- **C68** is violated: an element that is renamed after it was asked keeps its old
name, and so do its namespace and the types of its package. -/
theorem C68_rename_violated : ∃ (calls : List Call) (b : List (Option Answer)),
    calls = [.edit (.setName 1 "A"), .edit (.setClassifiers 0 [1]), .query (.type 0 "A"),
      .edit (.setName 1 "B"), .query (.type 0 "A"), .query (.type 0 "B"), .query (.name 1)] ∧
    run (init kinds) calls =
      b ++ [some (.element (some 1)), some (.element none), some (.text "A")] ∧
    ¬ AllRight (start kinds) calls (run (init kinds) calls) := by
  refine ⟨_, [none, none, some (.element (some 1)), none], rfl, by decide, ?_⟩
  have : run (init kinds) [.edit (.setName 1 "A"), .edit (.setClassifiers 0 [1]),
      .query (.type 0 "A"), .edit (.setName 1 "B"), .query (.type 0 "A"), .query (.type 0 "B"),
      .query (.name 1)] =
    [none, none, some (.element (some 1)), none, some (.element (some 1)), some (.element none),
      some (.text "A")] := by decide
  rw [this]
  simp [AllRight, Right, change, start, extName, detail]

/-- **C68** is violated: an annotation that is added after the namespace was asked is
not seen. -/
theorem C68_namespace_violated : ∃ calls : List Call,
    calls = [.query (.namespace_ 8), .edit (.setDetails 8 (some [("namespace", "http://n")])),
      .query (.namespace_ 8)] ∧
    ¬ AllRight (start kinds) calls (run (init kinds) calls) := by
  refine ⟨_, rfl, ?_⟩
  have : run (init kinds) [.query (.namespace_ 8),
      .edit (.setDetails 8 (some [("namespace", "http://n")])), .query (.namespace_ 8)] =
    [some (.text ""), none, some (.text "")] := by decide
  rw [this]
  simp [AllRight, Right, change, start, extNamespace, detail]

/-- **C68** is violated: a classifier that is taken from the package is still found,
and the one that took its place is not. -/
theorem C68_replaced_violated : ∃ (calls : List Call) (b : List (Option Answer)),
    calls = [.edit (.setName 1 "A"), .edit (.setName 2 "B"), .edit (.setClassifiers 0 [1]),
      .query (.type 0 "A"), .edit (.setClassifiers 0 [2]), .query (.type 0 "A"),
      .query (.type 0 "B")] ∧
    run (init kinds) calls = b ++ [some (.element (some 1)), some (.element none)] ∧
    ¬ AllRight (start kinds) calls (run (init kinds) calls) := by
  refine ⟨_, [none, none, none, some (.element (some 1)), none], rfl, by decide, ?_⟩
  have : run (init kinds) [.edit (.setName 1 "A"), .edit (.setName 2 "B"),
      .edit (.setClassifiers 0 [1]), .query (.type 0 "A"), .edit (.setClassifiers 0 [2]),
      .query (.type 0 "A"), .query (.type 0 "B")] =
    [none, none, none, some (.element (some 1)), none, some (.element (some 1)),
      some (.element none)] := by decide
  rw [this]
  simp [AllRight, Right, change, start, extName, detail]

/-- **C68** is violated: after a package was asked for its extended name, asking it for
a type panics, and the other way round. -/
theorem C68_package_violated :
    run (init kinds) [.query (.name 0), .query (.type 0 "A")] = [some (.text ""), some .panic] ∧
    run (init kinds) [.query (.type 0 "A"), .query (.name 0)] = [some (.element none), some .panic] ∧
    ¬ AllRight (start kinds) [.query (.name 0), .query (.type 0 "A")]
      (run (init kinds) [.query (.name 0), .query (.type 0 "A")]) := by
  have h : run (init kinds) [.query (.name 0), .query (.type 0 "A")] = [some (.text ""), some .panic] := by
    decide
  refine ⟨h, by decide, ?_⟩
  rw [h]
  simp [AllRight, Right]

end Examples

end Verif.ExtMeta
