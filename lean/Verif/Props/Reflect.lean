import Verif.Proofs.ReflectRead
/-!
# C73: reflective access to metamodel elements agrees with the declared metamodel

The metamodel declares its own features: their type, whether they are many, whether they may be changed, their default
value.  `ESet`, `EGet`, `EUnset` and `EIsSet` on an element should follow these declarations.
-/

namespace Verif.Reflect
open Spec

theorem answer_ok {r : Res (Bool × El)} {b : Bool} (h : answer r = .ok b) : ∃ u : El, r = .ok (b, u) := by
  cases r with
  | ok p =>
    have e : p.1 = b := by simpa [answer, Res.map] using h
    exact ⟨p.2, by rw [← e]⟩
  | panic => simp [answer, Res.map] at h
  | endless => simp [answer, Res.map] at h

/-- `ESet` of a changeable feature with a value of its type: `EGet` then shows that value, `EIsSet` tells whether it is
the default, and the features that are not computed from this one show what they showed.  Missing: `defaultValue`, which
needs a data type; a `nil` instance class, which panics; the ID flag of an attribute that was removed from its class; the
empty literal of a literal, the ID −1 of a classifier, and a `nil` container, which are not shown as given. -/
theorem C73_set_partial (E : Env) (s : El) (id : Nat) (d : Decl) (v : Val) (h : (declared s.kind)[id]? = some d)
    (hc : d.changeable = true) (fits : Fits d v)
    (h1 : d.name ≠ "defaultValue") (h2 : d.name = "instanceClass" → v ≠ .nil) (h3 : d.name = "iD" → ¬ Removed s 16)
    (h4 : d.name = "literal" → v ≠ .str "") (h5 : d.name = "classifierID" → v ≠ .int (-1))
    (h6 : d.name = "eModelElement" ∨ d.name = "ePackage" → v ≠ .nil) :
    ∃ t : El, eSet E s id v = .ok t ∧ t.kind = s.kind ∧ Shows E t id v ∧
      (∃ u : El, eIsSet E t id = .ok (decide (v ≠ d.default), u)) ∧
      ∀ (j : Nat) (dj : Decl) (w : Val), (declared s.kind)[j]? = some dj → j ≠ id → (dj.name, d.name) ∉ computedFrom →
        (Shows E t j w ↔ Shows E s j w) := by
  obtain ⟨t, a1, ⟨a2, a3, a4⟩, _⟩ := set_outcome E s id d v h hc fits h1 h2 h3 h4 h5 h6
  exact ⟨t, a1, a4.1, (shows_iff E t id v).mpr a2, answer_ok a3,
    fun j dj w hj hne hn => frame_shows a4 h hj hc hne hn h1 w⟩

/-- `ESet` of a single-valued feature tells the adapters the feature, the old value and the new one, once.  Missing: the
feature ID of a feature, which is changed silently; the instance type name, announced as the instance class name; the
default value, announced as its literal; the literal, whose old value is not the one shown; the classifier ID; the
containers.  A factory or a bound set again to the same element is not announced. -/
theorem C73_notify_partial (E : Env) (s t u : El) (id : Nat) (d : Decl) (v old : Val)
    (h : (declared s.kind)[id]? = some d) (hc : d.changeable = true) (hm : d.many = false) (fits : Fits d v)
    (hn : d.name ∉ ["featureID", "instanceTypeName", "defaultValue", "literal", "classifierID", "eModelElement",
      "ePackage"])
    (h2 : d.name = "instanceClass" → v ≠ .nil) (h3 : d.name = "iD" → ¬ Removed s 16)
    (hs : d.name ∈ ["eFactoryInstance", "eUpperBound", "eLowerBound"] → old ≠ v)
    (ho : eGet E s id false = .ok (old, u)) (ht : eSet E s id v = .ok t) :
    t.log = s.log ++ (if s.listening = true then [⟨.set, id, old, v⟩] else []) := by
  have e : ∀ n : String, n ∈ ["featureID", "instanceTypeName", "defaultValue", "literal", "classifierID",
      "eModelElement", "ePackage"] → d.name ≠ n := fun n hm e => hn (by rw [e]; exact hm)
  obtain ⟨t', a1, _, a3⟩ := set_outcome E s id d v h hc fits (e _ (by decide)) h2 h3
    (fun x => absurd x (e _ (by decide))) (fun x => absurd x (e _ (by decide)))
    (fun x => x.elim (fun x => absurd x (e _ (by decide))) (fun x => absurd x (e _ (by decide))))
  rw [ht] at a1
  cases a1
  refine a3 ?_ old u ho hs
  simp only [announced, hm, Bool.not_false, Bool.true_and, Bool.not_eq_eq_eq_not, Bool.not_true]
  simpa using hn

/-- `EUnset` of a changeable feature: `EGet` shows the declared default, `EIsSet` answers no, the features that are not
computed from this one show what they showed, and the adapters are told once, with the old value and the default.
Missing: the default value, the literal, the classifier ID and the containers. -/
theorem C73_unset_partial (E : Env) (s : El) (id : Nat) (d : Decl) (h : (declared s.kind)[id]? = some d)
    (hc : d.changeable = true)
    (h1 : d.name ∉ ["defaultValue", "literal", "classifierID", "eModelElement", "ePackage"])
    (h3 : d.name = "iD" → ¬ Removed s 16) :
    ∃ t : El, eUnset E s id = .ok t ∧ t.kind = s.kind ∧ Shows E t id d.default ∧
      (∃ u : El, eIsSet E t id = .ok (false, u)) ∧
      (∀ (j : Nat) (dj : Decl) (w : Val), (declared s.kind)[j]? = some dj → j ≠ id →
        (dj.name, d.name) ∉ computedFrom → (Shows E t j w ↔ Shows E s j w)) ∧
      (d.many = false → d.name ≠ "featureID" → d.name ≠ "instanceTypeName" →
        ∀ (old : Val) (u : El), eGet E s id false = .ok (old, u) →
        (d.name ∈ ["eFactoryInstance", "eUpperBound", "eLowerBound"] → old ≠ d.default) →
        ∃ e : Event, t.log = s.log ++ (if s.listening = true then [⟨e, id, old, d.default⟩] else [])) := by
  obtain ⟨t, a1, ⟨a2, a3, a4⟩, e, a5⟩ := unset_outcome E s id d h hc h1 h3
  have hd : d.name ≠ "defaultValue" := fun e => h1 (by rw [e]; decide)
  refine ⟨t, a1, a4.1, (shows_iff E t id _).mpr a2, by simpa using answer_ok a3,
    fun j dj w hj hne hn => frame_shows a4 h hj hc hne hn hd w, ?_⟩
  intro hm n1 n2 old u ho hs
  refine ⟨e, a5 ?_ old u ho hs⟩
  simp only [announced, hm, Bool.not_false, Bool.true_and, Bool.not_eq_eq_eq_not, Bool.not_true]
  simp only [List.mem_cons, List.not_mem_nil, or_false, not_or] at h1
  simp [n1, n2, h1]

/-- `EIsSet` tells whether the value `EGet` shows is the declared default.  Missing: the literal, the classifier ID, and
the features computed at the first read. -/
theorem C73_isset_partial (E : Env) (s : El) (id : Nat) (d : Decl) (v : Val) (h : (declared s.kind)[id]? = some d)
    (hn : d.name ∉ ["literal", "classifierID", "eAttributeType", "eReferenceType", "eIDAttribute"])
    (hm : d.many = true → d.changeable = true) (hv : Shows E s id v) :
    ∃ u : El, eIsSet E s id = .ok (decide (v ≠ d.default), u) :=
  answer_ok (isset_outcome E s id d v h hn hm ((shows_iff E s id v).mp hv))

/-- `EGet` and `EIsSet` of a declared feature return.  Missing: the container of an element that was removed from it, the
classifier ID of a classifier that was removed from its package, and the type of an attribute. -/
theorem C73_get_partial (E : Env) (s : El) (id : Nat) (d : Decl) (h : (declared s.kind)[id]? = some d)
    (hr : d.name = "eContainingClass" ∨ d.name = "ePackage" ∨ d.name = "eModelElement" ∨ d.name = "eEnum" ∨
      d.name = "eOperation" ∨ d.name = "eSuperPackage" → ¬ Removed s id)
    (hc : d.name = "classifierID" → ¬ Removed s 6)
    (ha : d.name ≠ "eAttributeType") (r : Bool) :
    (∃ (v : Val) (t : El), eGet E s id r = .ok (v, t)) ∧ ∃ (b : Bool) (t : El), eIsSet E s id = .ok (b, t) :=
  get_returns E s id d h hr hc ha r

/-- `EGet` without resolution changes nothing of what `EGet` shows.  Missing: the default value and the container flag
of a reference, which resolve the type and the opposite. -/
theorem C73_read_partial (E : Env) (s t : El) (id j : Nat) (d dj : Decl) (v w : Val)
    (h : (declared s.kind)[id]? = some d) (hn : d.name ≠ "container")
    (hm : d.name = "defaultValue" → d.changeable = false) (hv : eGet E s id false = .ok (v, t))
    (hj : (declared s.kind)[j]? = some dj) : Shows E t j w ↔ Shows E s j w := by
  rw [shows_iff, shows_iff, read_same E s t id d v h hn hm hv j (declared_lt hj)]

/-- `EGet` with resolution returns the element a proxy stands for, keeps it, tells the adapters, and leaves the features
that are not computed from this one as they were. -/
theorem C73_resolve (E : Env) (s : El) (id : Nat) (d : Decl) (o : Nat) (h : (declared s.kind)[id]? = some d)
    (hn : d.name = "eType" ∨ d.name = "eOpposite" ∨ d.name = "eClassifier" ∨ d.name = "eRawType")
    (hv : Shows E s id (.obj o)) :
    ∃ t : El, eGet E s id true = .ok (.obj (E.resolve o), t) ∧ Shows E t id (.obj (E.resolve o)) ∧
      t.log = s.log ++ (if s.listening = true ∧ E.resolve o ≠ o
        then [⟨.resolve, id, .obj o, .obj (E.resolve o)⟩] else []) ∧
      (d.changeable = true → ∀ (j : Nat) (dj : Decl) (w : Val), (declared s.kind)[j]? = some dj → j ≠ id →
        (dj.name, d.name) ∉ computedFrom → (Shows E t j w ↔ Shows E s j w)) := by
  obtain ⟨t, a1, a2, a3, a4⟩ := resolve_outcome E s id d o h hn ((shows_iff E s id _).mp hv)
  refine ⟨t, a1, (shows_iff E t id _).mpr a2, a4, fun hc j dj w hj hne hn' => frame_shows a3 h hj hc hne hn' ?_ w⟩
  intro e
  rw [e] at hn
  revert hn
  decide

/-- An ID which is not the one of a declared feature is refused by the four methods. -/
theorem C73_undeclared (E : Env) (s : El) (id : Nat) (v : Val) (r : Bool) (h : (declared s.kind)[id]? = none) :
    eGet E s id r = .panic ∧ eSet E s id v = .panic ∧ eUnset E s id = .panic ∧ eIsSet E s id = .panic :=
  undeclared E s id v r h

/-- `ESet` and `EUnset` of a declared feature that may not be changed never return: the method calls itself until the
stack overflows. -/
theorem C73_unchangeable_violated (E : Env) (s : El) (id : Nat) (d : Decl) (v : Val)
    (h : (declared s.kind)[id]? = some d) (hc : d.changeable = false) :
    eSet E s id v = .endless ∧ eUnset E s id = .endless :=
  unchangeable E s id d v h hc

/-- Giving back to a list feature the list it returned empties it, whatever it held. -/
theorem C73_self_violated (E : Env) (s t : El) (id : Nat) (d : Decl) (w : Val) (r : Bool)
    (h : (declared s.kind)[id]? = some d) (hm : d.many = true) (hc : d.changeable = true)
    (hv : eGet E s id r = .ok (w, t)) : ∃ u : El, eSet E t id w = .ok u ∧ Shows E u id (.list none []) := by
  obtain ⟨u, a1, a2⟩ := self_outcome E s t id d w r h hm hc hv
  exact ⟨u, a1, (shows_iff E u id _).mpr a2⟩

/-- A sequence of writes to regular features: each feature that is not computed from a written one shows the last value
written to it, the declared default if the last write was `EUnset`, and what it showed if it was not written. -/
theorem C73_sequence_partial (E : Env) (s : El) (ws : List Write) (h : Regular s.kind ws) (hr : ¬ Removed s 16) :
    ∃ t : El, writeAll E s ws = .ok t ∧ t.kind = s.kind ∧
      ∀ (id : Nat) (d : Decl) (v : Val), (declared s.kind)[id]? = some d →
        (∀ w ∈ ws, ∀ dw : Decl, (declared s.kind)[w.id]? = some dw → (d.name, dw.name) ∉ computedFrom) →
        (Shows E t id v ↔ match last s.kind id ws with
          | some x => v = x
          | none => Shows E s id v) :=
  writeAll_shows E ws s h hr

/-- `ESet` of the default value of a feature whose type is a serializable data type with a factory: the literal is the
conversion of the value, and the default value is the conversion back. -/
theorem C73_default (E : Env) (s : El) (t f : Nat) (v : Val) (hk : s.kind = .eAttribute ∨ s.kind = .eReference)
    (ht : s.refs .eType = some t) (hd : E.isDataType (E.resolve t) = true) (hf : E.factory (E.resolve t) = some f)
    (hs : E.serializable (E.resolve t) = true) (hl : E.toString f (E.resolve t) v ≠ "")
    (hp : E.resolve (E.resolve t) = E.resolve t) :
    ∃ u : El, eSet E s 13 v = .ok u ∧
      Shows E u 13 (shown (E.fromString f (E.resolve t) (E.toString f (E.resolve t) v))) ∧
      Shows E u 12 (.str (E.toString f (E.resolve t) v)) := by
  obtain ⟨u, a1, a2, a3⟩ := default_outcome E s t f v hk ht hd hf hs hl hp
  exact ⟨u, a1, (shows_iff E u 13 _).mpr a2, (shows_iff E u 12 _).mpr a3⟩

/-! ## Cases

Elements 1 and 2 are classes, 3 and 4 data types of the factory 9, 5 a proxy of 2; a package holds this element at
position 7. -/

def demo : Env where
  resolve := fun o => if o = 5 then 2 else o
  isClass := fun o => o == 1 || o == 2
  isDataType := fun o => o == 3 || o == 4
  isContainment := fun _ => false
  typeDefault := fun _ => .nil
  factory := fun o => if o = 3 ∨ o = 4 then some 9 else none
  serializable := fun _ => true
  fromString := fun _ t _ => .any t
  toString := fun _ _ _ => "x"
  position := fun _ => 7
  classList := fun _ => [1, 2]
  idAttribute := none
  dataTypeDefault := .nil

def heard (k : Kind) : El := { fresh k with listening := true }

/-- A case of `C73_set_partial` and `C73_notify_partial`: the upper bound of a reference. -/
example : (declared (heard .eReference).kind)[5]? = some (number "upperBound" 1) ∧ Fits (number "upperBound" 1) (.int (-1)) ∧
    ∃ t : El, eSet demo (heard .eReference) 5 (.int (-1)) = .ok t ∧ Shows demo t 5 (.int (-1)) ∧
      Shows demo t 6 (.bool true) ∧ t.log = [⟨.set, 5, .int 1, .int (-1)⟩] :=
  ⟨rfl, ⟨-1, rfl⟩, _, rfl, ⟨_, _, rfl, rfl⟩, ⟨_, _, rfl, rfl⟩, rfl⟩

/-- A case of `C73_set_partial`: a list. -/
example : Fits (links "eSuperTypes") (.list none [4, 3]) ∧
    ∃ t : El, eSet demo (fresh .eClass) 13 (.list none [4, 3]) = .ok t ∧ Shows demo t 13 (.list none [4, 3]) :=
  ⟨⟨[4, 3], by decide, rfl⟩, _, rfl, ⟨_, _, rfl, rfl⟩⟩

/-- A case of `C73_unset_partial`: an attribute made unchangeable, then unset. -/
example : ∃ s t : El, eSet demo (heard .eAttribute) 9 (.bool false) = .ok s ∧ Shows demo s 9 (.bool false) ∧
    eUnset demo s 9 = .ok t ∧ Shows demo t 9 (.bool true) ∧
    t.log = [⟨.set, 9, .bool true, .bool false⟩, ⟨.set, 9, .bool false, .bool true⟩] :=
  ⟨_, _, rfl, ⟨_, _, rfl, rfl⟩, rfl, ⟨_, _, rfl, rfl⟩, rfl⟩

/-- A case of `C73_isset_partial`, `C73_get_partial` and `C73_read_partial`: a class in a package. -/
example : ¬ Removed { fresh .eClass with container := some 1, containerFeatureID := 6 } 6 ∧
    Shows demo { fresh .eClass with container := some 1, containerFeatureID := 6 } 6 (.obj 1) ∧
    Shows demo { fresh .eClass with container := some 1, containerFeatureID := 6 } 7 (.int 7) :=
  ⟨by simp [Removed], ⟨_, _, rfl, rfl⟩, ⟨_, _, rfl, rfl⟩⟩

/-- A case of `C73_resolve`: the type of a parameter is a proxy. -/
example : ∃ s t : El, eSet demo (heard .eParameter) 8 (.obj 5) = .ok s ∧ Shows demo s 8 (.obj 5) ∧
    eGet demo s 8 true = .ok (.obj 2, t) ∧ Shows demo t 8 (.obj 2) ∧
    t.log = [⟨.set, 8, .nil, .obj 5⟩, ⟨.resolve, 8, .obj 5, .obj 2⟩] :=
  ⟨_, _, rfl, ⟨_, _, rfl, rfl⟩, rfl, ⟨_, _, rfl, rfl⟩, rfl⟩

/-- A case of `C73_undeclared` and `C73_unchangeable_violated`. -/
example : (declared .eFactory)[2]? = none ∧ ∃ d : Decl, (declared .eClass)[22]? = some d ∧ d.changeable = false :=
  ⟨rfl, _, rfl, rfl⟩

/-- A case of `C73_sequence_partial`: two names and a type given and unset. -/
example : Regular .eAttribute [.set 1 (.str "a"), .set 8 (.obj 3), .set 1 (.str "b"), .unset 8] ∧
    last .eAttribute 1 [.set 1 (.str "a"), .set 8 (.obj 3), .set 1 (.str "b"), .unset 8] = some (.str "b") ∧
    last .eAttribute 8 [.set 1 (.str "a"), .set 8 (.obj 3), .set 1 (.str "b"), .unset 8] = some .nil ∧
    ¬ Removed (fresh .eAttribute) 16 := by
  refine ⟨?_, rfl, rfl, by simp [Removed, fresh]⟩
  intro w hw
  simp only [List.mem_cons, List.not_mem_nil, or_false] at hw
  rcases hw with rfl | rfl | rfl | rfl
  · exact ⟨text "name", rfl, rfl, by decide, fun v h => ⟨"a", by injection h with _ h; exact h.symm⟩⟩
  · exact ⟨link "eType", rfl, rfl, by decide, fun v h => Or.inr ⟨3, by injection h with _ h; exact h.symm⟩⟩
  · exact ⟨text "name", rfl, rfl, by decide, fun v h => ⟨"b", by injection h with _ h; exact h.symm⟩⟩
  · exact ⟨link "eType", rfl, rfl, by decide, fun v h => by cases h⟩

/-- A case of `C73_default`: an attribute of a data type. -/
example : ∃ s u : El, eSet demo (fresh .eAttribute) 8 (.obj 3) = .ok s ∧ eSet demo s 13 (.any 0) = .ok u ∧
    Shows demo u 13 (.any 3) ∧ Shows demo u 12 (.str "x") :=
  ⟨_, _, rfl, rfl, ⟨_, _, rfl, rfl⟩, ⟨_, _, rfl, rfl⟩⟩

/-! ## Where the code departs from the declarations -/

/-- After the type of a reference is changed the reference type is still the old one, when it was read before. -/
theorem C73_referenceType_violated : ∃ (E : Env) (s0 s1 s2 s3 : El) (v : Val),
    eSet E (fresh .eReference) 8 (.obj 1) = .ok s1 ∧ s0 = fresh .eReference ∧ eGet E s1 22 true = .ok (v, s2) ∧
    eSet E s2 8 (.obj 2) = .ok s3 ∧ E.isClass 2 = true ∧ Shows E s3 8 (.obj 2) ∧ Shows E s3 22 (.obj 1) :=
  ⟨demo, _, _, _, _, _, rfl, rfl, rfl, rfl, rfl, ⟨_, _, rfl, rfl⟩, ⟨_, _, rfl, rfl⟩⟩

/-- After the type of an attribute is changed to another data type of the same factory its default value is still the
one of the old type, when it was read before: it is not the conversion of the literal by the type. -/
theorem C73_default_violated : ∃ (E : Env) (s1 s2 s3 s4 : El) (v : Val),
    eSet E (fresh .eAttribute) 8 (.obj 3) = .ok s1 ∧ eSet E s1 12 (.str "x") = .ok s2 ∧
    eGet E s2 13 false = .ok (v, s3) ∧ eSet E s3 8 (.obj 4) = .ok s4 ∧
    Shows E s4 8 (.obj 4) ∧ Shows E s4 12 (.str "x") ∧ E.fromString 9 4 "x" = .any 4 ∧ Shows E s4 13 (.any 3) :=
  ⟨demo, _, _, _, _, _, rfl, rfl, rfl, rfl, ⟨_, _, rfl, rfl⟩, ⟨_, _, rfl, rfl⟩, rfl, ⟨_, _, rfl, rfl⟩⟩

/-- An annotation that was given an element and whose element was unset: `EGet` and `EIsSet` of the element panic. -/
theorem C73_removed_violated : ∃ (E : Env) (s1 s2 : El), eSet E (fresh .eAnnotation) 3 (.obj 1) = .ok s1 ∧
    eUnset E s1 3 = .ok s2 ∧ eGet E s2 3 true = .panic ∧ eIsSet E s2 3 = .panic :=
  ⟨demo, _, _, rfl, rfl, rfl, rfl⟩

/-- A literal which only has a name shows the name as its literal, and its literal is said not to be set; the computed
lists of a class and the ID of a classifier are said not to be set until they are read. -/
theorem C73_isset_violated :
    (∃ (E : Env) (s t : El), eSet E (fresh .eEnumLiteral) 1 (.str "a") = .ok s ∧ Shows E s 4 (.str "a") ∧
      eIsSet E s 4 = .ok (false, t)) ∧
    (∃ (E : Env) (s t u : El) (v : Val), s = fresh .eClass ∧ Shows E s 22 (.list none [1, 2]) ∧
      eIsSet E s 22 = .ok (false, s) ∧ eGet E s 22 true = .ok (v, t) ∧ eIsSet E t 22 = .ok (true, u)) :=
  ⟨⟨demo, _, _, rfl, ⟨_, _, rfl, rfl⟩, rfl⟩, ⟨demo, _, _, _, _, rfl, ⟨_, _, rfl, rfl⟩, rfl, rfl, rfl⟩⟩

/-- The adapters of a feature are not told of a new feature ID; those of a classifier are told of another feature than the
instance type name. -/
theorem C73_notify_violated :
    (∃ (E : Env) (s : El), eSet E (heard .eAttribute) 17 (.int 4) = .ok s ∧ Shows E s 17 (.int 4) ∧ s.log = []) ∧
    (∃ (E : Env) (s : El), eSet E (heard .eClass) 4 (.str "a") = .ok s ∧ Shows E s 4 (.str "a") ∧
      s.log = [⟨.set, 2, .str "", .str "a"⟩]) :=
  ⟨⟨demo, _, rfl, ⟨_, _, rfl, rfl⟩, rfl⟩, ⟨demo, _, rfl, ⟨_, _, rfl, rfl⟩, rfl⟩⟩

/-- `ESet` of the instance class with `nil`, the value `EGet` returns on a new classifier, panics; so does `EUnset` of the
default value of a new attribute, and `EGet` of its type. -/
theorem C73_panic_violated : ∃ E : Env, Shows E (fresh .eClass) 3 .nil ∧ eSet E (fresh .eClass) 3 .nil = .panic ∧
    eUnset E (fresh .eAttribute) 13 = .panic ∧ eGet E (fresh .eAttribute) 19 true = .panic ∧
    eIsSet E (fresh .eAttribute) 19 = .panic :=
  ⟨demo, ⟨_, _, rfl, rfl⟩, rfl, rfl, rfl, rfl⟩

end Verif.Reflect
