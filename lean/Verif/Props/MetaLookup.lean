import Verif.Proofs.MetaLookup
/-
C67: Questions about a metamodel are answered for the metamodel as it is.

A user edits a package (adds, inserts and removes classifiers, renames them,
changes instance types, literals and defaults, changes types of features and texts
of their defaults) and asks in between: the classifier with a name, the ID of a
classifier, the type of a reference, default values, literals of an enumeration.
Each answer should be the one of the metamodel at that moment, whatever was asked
before.  It is not: much is remembered and not forgotten.  The `violated` theorems
show each case, the `partial` theorem says that these are all.
-/
namespace Verif.MetaLookup
open Verif.MetaLookup.Spec

/-- **C67** (partial).  In any sequence of edits and questions in which nothing is
changed that was asked about before (`Careful`), every question is answered rightly,
whatever the conversion of texts is.  What is missing: the sequences that are not
careful. -/
theorem C67_answers_partial (conv : Nat → String → String → Option Val) (kind : Nat → Kind)
    (calls : List Call) (careful : Careful (start kind) nothing calls) :
    AllRight conv (start kind) calls (run conv (init kind) calls) :=
  run_right calls (rel_init kind) careful

/-- **C67** (partial).  The part of it that needs no care: whatever was edited and
asked before, the literals of an enumeration are found as they are. -/
theorem C67_literals (conv : Nat → String → String → Option Val) (kind : Nat → Kind)
    (ls : List Literal) (c : Nat) (calls : List Call) (n : String) (v : Int)
    (unchanged : ∀ call ∈ calls, ∀ l : List Literal, call ≠ .edit (.setLiterals c l)) :
    ∃ (before : List (Option Answer)) (byName byValue byLiteral : Option Literal),
      run conv (init kind) (.edit (.setLiterals c ls) :: calls ++
        [.query (.literalByName c n), .query (.literalByValue c v), .query (.literalByLiteral c n)])
        = before ++ [some (.literal byName), some (.literal byValue), some (.literal byLiteral)] ∧
      First ls (fun l => l.name = n) byName ∧ First ls (fun l => l.value = v) byValue ∧
      First ls (fun l => text l = n) byLiteral := by
  have key : ∀ (calls : List Call) (s : State), s.literals c = ls →
      (∀ call ∈ calls, ∀ l : List Literal, call ≠ .edit (.setLiterals c l)) →
      ∃ before : List (Option Answer), run conv s (calls ++
        [.query (.literalByName c n), .query (.literalByValue c v), .query (.literalByLiteral c n)])
        = before ++ [some (.literal (literalByName ls n)), some (.literal (literalByValue ls v)),
            some (.literal (literalByLiteral ls n))] := by
    intro calls
    induction calls with
    | nil => intro s hs _; exact ⟨[], by simp [run, step, query, hs]⟩
    | cons a calls ih =>
      intro s hs hu
      have hs' : (step conv s a).1.literals c = ls := by
        have hu' := hu a (List.mem_cons_self ..)
        cases a with
        | edit e =>
          cases e <;> simp only [step, edit, addClassifier, insertClassifier, removeClassifier,
            notifyClassifiers, setTypeDefault, setDefaultLiteral] <;> (try split) <;> (try split) <;>
            (try exact hs)
          rename_i d l
          simp only [upd]
          split
          · subst d; exact absurd rfl (hu' l)
          · exact hs
        | query q =>
          cases q <;> simp only [step, query, getEClassifier, getClassifierID, getEReferenceType,
            getTypeDefault, getDefault] <;> (try exact hs) <;> (repeat' split) <;> (try exact hs)
      obtain ⟨b, hb⟩ := ih _ hs' (fun x hx => hu x (List.mem_cons_of_mem _ hx))
      exact ⟨(step conv s a).2 :: b, by simp only [List.cons_append, run, hb]⟩
  obtain ⟨b, hb⟩ := key calls (edit (init kind) (.setLiterals c ls)) (by simp [edit, upd]) unchanged
  refine ⟨none :: b, _, _, _, ?_, literalByName_first ls n, literalByValue_first ls v,
    literalByLiteral_first ls n⟩
  simp only [List.cons_append, run, step, hb]

section Examples

/-- Classifiers 0 to 4 are classes, 5 to 9 data types, the others enumerations. -/
def kinds (n : Nat) : Kind := if n < 5 then .cls else if n < 10 then .data else .enum

/-- A conversion for the examples: factory 0 reads digits as `int` and panics on
anything else. -/
def reads (factory : Nat) (inst text : String) : Option Val :=
  if factory = 0 ∧ inst = "int" then
    if text = "1" then some (.num "int" 1) else if text = "2" then some (.num "int" 2) else none
  else some (.str text)

/-- A package is built, then asked, then extended, then asked again. -/
def careful : List Call :=
  [.edit (.add 0), .edit (.setName 0 "A"), .edit (.add 5), .edit (.setName 5 "Int"),
   .edit (.setInst 5 "int"), .edit (.setEType 0 (some 0)), .edit (.setEType 1 (some 5)),
   .edit (.setDefaultLiteral 1 "1"),
   .query (.classifier "A"), .query (.classifierID 5), .query (.referenceType 0),
   .query (.default 1),
   .edit (.add 1), .edit (.setName 1 "B"), .query (.classifier "B"), .query (.classifierID 0),
   .edit (.setDefaultLiteral 1 "2"), .query (.default 1), .query (.typeDefault 5),
   .edit (.setFactory 1), .query (.default 1)]

example : Careful (start kinds) nothing careful := by
  simp [Careful, careful, CarefulEdit, CarefulQuery, change, askedEdit, askedQuery, start, nothing,
    Changes, mark, kinds, noZeroNow, zeros, List.lookup]
  grind

example : (run reads (init kinds) careful).filterMap id =
    [.object (some 0), .index 1, .object (some 0), .value (.num "int" 1), .object (some 1),
     .index 0, .value (.num "int" 2), .value (.num "int" 0), .value (.str "2")] := by decide

/-- **C67** is violated: a classifier that is renamed after a lookup is found under
its old name and not under the new one. -/
theorem C67_rename_violated : ∃ (calls : List Call) (b : List (Option Answer)),
    calls = [.edit (.add 0), .edit (.setName 0 "A"), .query (.classifier "A"),
      .edit (.setName 0 "B"), .query (.classifier "A"), .query (.classifier "B")] ∧
    run reads (init kinds) calls = b ++ [some (.object (some 0)), some (.object none)] ∧
    ¬ AllRight reads (start kinds) calls (run reads (init kinds) calls) := by
  refine ⟨_, [none, none, some (.object (some 0)), none], rfl, by decide, ?_⟩
  have : run reads (init kinds) [.edit (.add 0), .edit (.setName 0 "A"), .query (.classifier "A"),
      .edit (.setName 0 "B"), .query (.classifier "A"), .query (.classifier "B")] =
    [none, none, some (.object (some 0)), none, some (.object (some 0)), some (.object none)] := by
    decide
  rw [this]
  simp [AllRight, Right, change, start]

/-- **C67** is violated: a classifier added while the package delivers no
notifications is not found, even after delivery is switched on again. -/
theorem C67_deliver_violated : ∃ calls : List Call,
    calls = [.query (.classifier "A"), .edit (.setName 0 "A"), .edit (.setDeliver false),
      .edit (.add 0), .edit (.setDeliver true), .query (.classifier "A")] ∧
    ¬ AllRight reads (start kinds) calls (run reads (init kinds) calls) := by
  refine ⟨_, rfl, ?_⟩
  have : run reads (init kinds) [.query (.classifier "A"), .edit (.setName 0 "A"),
      .edit (.setDeliver false), .edit (.add 0), .edit (.setDeliver true),
      .query (.classifier "A")] =
    [some (.object none), none, none, none, none, some (.object none)] := by decide
  rw [this]
  simp [AllRight, Right, change, start]

/-- **C67** is violated: once asked, the ID of a classifier stays, although another
classifier is inserted before it; then two classifiers have the same ID. -/
theorem C67_classifierID_violated : ∃ (calls : List Call) (b : List (Option Answer)),
    calls = [.edit (.add 0), .query (.classifierID 0), .edit (.insert 0 1),
      .query (.classifierID 0), .query (.classifierID 1)] ∧
    run reads (init kinds) calls = b ++ [some (.index 0), some (.index 0)] ∧
    ¬ AllRight reads (start kinds) calls (run reads (init kinds) calls) := by
  refine ⟨_, [none, some (.index 0), none], rfl, by decide, ?_⟩
  have : run reads (init kinds) [.edit (.add 0), .query (.classifierID 0), .edit (.insert 0 1),
      .query (.classifierID 0), .query (.classifierID 1)] =
    [none, some (.index 0), none, some (.index 0), some (.index 0)] := by decide
  rw [this]
  simp [AllRight, Right, change, start]

/-- **C67** is violated: once asked, the type of a reference stays, although the
reference is given another type, or none. -/
theorem C67_referenceType_violated : ∃ (calls : List Call) (b : List (Option Answer)),
    calls = [.edit (.setEType 0 (some 0)), .query (.referenceType 0),
      .edit (.setEType 0 (some 1)), .query (.referenceType 0)] ∧
    run reads (init kinds) calls = b ++ [some (.object (some 0))] ∧
    ¬ AllRight reads (start kinds) calls (run reads (init kinds) calls) := by
  refine ⟨_, [none, some (.object (some 0)), none], rfl, by decide, ?_⟩
  have : run reads (init kinds) [.edit (.setEType 0 (some 0)), .query (.referenceType 0),
      .edit (.setEType 0 (some 1)), .query (.referenceType 0)] =
    [none, some (.object (some 0)), none, some (.object (some 0))] := by decide
  rw [this]
  simp [AllRight, Right, change, start, kinds]
  exact ⟨0, by simp⟩

/-- **C67** is violated: a data type whose default is asked before its instance type
is set never has the default of the instance type. -/
theorem C67_typeDefault_violated : ∃ calls : List Call,
    calls = [.query (.typeDefault 5), .edit (.setInst 5 "int"), .query (.typeDefault 5)] ∧
    ¬ AllRight reads (start kinds) calls (run reads (init kinds) calls) := by
  refine ⟨_, rfl, ?_⟩
  have : run reads (init kinds) [.query (.typeDefault 5), .edit (.setInst 5 "int"),
      .query (.typeDefault 5)] = [some (.value .nil), none, some (.value .nil)] := by decide
  rw [this]
  simp [AllRight, Right, change, start, kinds, typeDefault, zeros, List.lookup]

/-- **C67** is violated: a feature whose default was asked keeps the value when it is
given another type. -/
theorem C67_default_violated : ∃ (calls : List Call) (b : List (Option Answer)),
    calls = [.edit (.add 5), .edit (.setInst 5 "int"), .edit (.add 6), .edit (.setInst 6 "string"),
      .edit (.setEType 0 (some 5)), .edit (.setDefaultLiteral 0 "1"), .query (.default 0),
      .edit (.setEType 0 (some 6)), .query (.default 0)] ∧
    run reads (init kinds) calls = b ++ [some (.value (.num "int" 1))] ∧
    ¬ AllRight reads (start kinds) calls (run reads (init kinds) calls) := by
  refine ⟨_, [none, none, none, none, none, none, some (.value (.num "int" 1)), none], rfl,
    by decide, ?_⟩
  have : run reads (init kinds) [.edit (.add 5), .edit (.setInst 5 "int"), .edit (.add 6),
      .edit (.setInst 6 "string"), .edit (.setEType 0 (some 5)), .edit (.setDefaultLiteral 0 "1"),
      .query (.default 0), .edit (.setEType 0 (some 6)), .query (.default 0)] =
    [none, none, none, none, none, none, some (.value (.num "int" 1)), none,
      some (.value (.num "int" 1))] := by decide
  rw [this]
  simp [AllRight, Right, change, start, kinds, reads]

/-- **C67** is violated: the default computed for an earlier text is given for a
type that can not be converted. -/
theorem C67_leftover_violated : ∃ (calls : List Call) (b : List (Option Answer)),
    calls = [.edit (.add 5), .edit (.setInst 5 "int"), .edit (.setEType 0 (some 5)),
      .edit (.setDefaultLiteral 0 "1"), .query (.default 0),
      .edit (.setDefaultLiteral 0 "2"), .edit (.setSerializable 5 false), .query (.default 0)] ∧
    run reads (init kinds) calls = b ++ [some (.value (.num "int" 1))] ∧
    ¬ AllRight reads (start kinds) calls (run reads (init kinds) calls) := by
  refine ⟨_, [none, none, none, none, some (.value (.num "int" 1)), none, none], rfl,
    by decide, ?_⟩
  have : run reads (init kinds) [.edit (.add 5), .edit (.setInst 5 "int"),
      .edit (.setEType 0 (some 5)), .edit (.setDefaultLiteral 0 "1"), .query (.default 0),
      .edit (.setDefaultLiteral 0 "2"), .edit (.setSerializable 5 false), .query (.default 0)] =
    [none, none, none, none, some (.value (.num "int" 1)), none, none,
      some (.value (.num "int" 1))] := by decide
  rw [this]
  simp [AllRight, Right, change, start, kinds, reads]

end Examples

end Verif.MetaLookup
