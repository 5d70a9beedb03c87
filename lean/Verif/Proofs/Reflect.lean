import Verif.Spec.Reflect
/-!
# Lemmas for C73
-/

namespace Verif.Reflect
open Spec

/-- The places of an element. -/
inductive Field where
  | b (f : BoolField) | i (f : IntField) | s (f : StrField) | r (f : RefField) | l (f : ListField)
  | computed (id : Nat) | idAttribute | instanceClass | instance_ | default | container
  deriving DecidableEq, Repr

/-- Two elements have the same value at a place. -/
def Agree (s t : El) : Field → Prop
  | .b f => s.bools f = t.bools f
  | .i f => s.ints f = t.ints f
  | .s f => s.strs f = t.strs f
  | .r f => s.refs f = t.refs f
  | .l f => (s.lists f).getD [] = (t.lists f).getD []
  | .computed id => s.computed id = t.computed id
  | .idAttribute => s.idAttribute = t.idAttribute
  | .instanceClass => s.instanceClass = t.instanceClass
  | .instance_ => s.instance_ = t.instance_
  | .default => s.defaultValue = t.defaultValue ∧ s.defaultValueFactory = t.defaultValueFactory
  | .container => s.container = t.container ∧ s.containerFeatureID = t.containerFeatureID

def Res.map {α β : Type} (f : α → β) : Res α → Res β
  | .ok a => .ok (f a)
  | .panic => .panic
  | .endless => .endless

/-- The place a feature is written at, by class. -/
def named : Nat → List Field
  | 0 => [.l .eAnnotations]
  | 1 => [.s .name]
  | _ => []

def typed : Nat → List Field
  | 2 => [.b .ordered] | 3 => [.b .unique] | 4 => [.i .lowerBound] | 5 => [.i .upperBound]
  | 6 => [.i .upperBound] | 7 => [.i .lowerBound] | 8 => [.r .eType]
  | j => named j

def structural : Nat → List Field
  | 9 => [.b .changeable] | 10 => [.b .volatile] | 11 => [.b .transient]
  | 12 => [.s .defaultValueLiteral]
  | 13 => [.r .eType, .s .defaultValueLiteral, .i .upperBound, .default]
  | 14 => [.b .unsettable] | 15 => [.b .derived] | 16 => [.container] | 17 => [.i .featureID]
  | j => typed j

def classifier : Nat → List Field
  | 2 => [.s .instanceClassName] | 3 => [.instanceClass] | 4 => [.s .instanceClassName] | 5 => []
  | 6 => [.container] | 7 => [.i .classifierID, .container]
  | j => named j

/-- The places `EGet` reads. -/
def reads : Kind → Nat → List Field
  | .eAnnotation, j => match j with
    | 0 => [.l .eAnnotations] | 1 => [.s .source] | 2 => [.l .details] | 3 => [.container] | 4 => [.l .contents]
    | 5 => [.l .references] | _ => []
  | .eAttribute, j => match j with
    | 18 => [.b .iD] | 19 => [.r .eType] | j => structural j
  | .eClass, j => match j with
    | 8 => [.b .abstract] | 9 => [.b .interface] | 10 => [.l .eStructuralFeatures] | 13 => [.l .eSuperTypes]
    | 14 => [.l .eOperations] | 24 => [.idAttribute]
    | 11 => [.computed 11] | 12 => [.computed 12] | 15 => [.computed 15] | 16 => [.computed 16]
    | 17 => [.computed 17] | 18 => [.computed 18] | 19 => [.computed 19] | 20 => [.computed 20]
    | 21 => [.computed 21] | 22 => [.computed 22] | 23 => [.computed 23]
    | j => classifier j
  | .eDataType, j => match j with
    | 8 => [.b .serializable] | j => classifier j
  | .eEnum, j => match j with
    | 8 => [.b .serializable] | 9 => [.l .eLiterals] | j => classifier j
  | .eEnumLiteral, j => match j with
    | 2 => [.i .value] | 3 => [.instance_] | 4 => [.s .literal, .s .name] | 5 => [.container] | j => named j
  | .eFactory, j => match j with
    | 0 => [.l .eAnnotations] | 1 => [.container] | _ => []
  | .eGenericType, j => match j with
    | 0 => [.r .eUpperBound] | 1 => [.l .eTypeArguments] | 2 => [.r .eRawType] | 3 => [.r .eLowerBound]
    | 4 => [.r .eTypeParameter] | 5 => [.r .eClassifier] | _ => []
  | .eOperation, j => match j with
    | 9 => [.container] | 10 => [.l .eParameters] | 11 => [.l .eExceptions] | 12 => [.i .operationID] | j => typed j
  | .ePackage, j => match j with
    | 2 => [.s .nsURI] | 3 => [.s .nsPrefix] | 4 => [.r .eFactoryInstance] | 5 => [.l .eClassifiers]
    | 6 => [.l .eSubPackages] | 7 => [.container] | j => named j
  | .eParameter, j => match j with
    | 9 => [.container] | j => typed j
  | .eReference, j => match j with
    | 18 => [.b .containment] | 19 => [.r .eOpposite] | 20 => [.b .resolveProxies] | 21 => [.r .eOpposite]
    | 22 => [.r .eReferenceType, .r .eType] | 23 => [.l .eKeys] | j => structural j
  | .eTypeParameter, j => match j with
    | 2 => [.l .eBounds] | j => named j
  | .eStringToStringMapEntry, j => match j with
    | 0 => [.s .key] | 1 => [.s .entryValue] | _ => []

/-- The places `ESet` writes. -/
def writes (k : Kind) (i : Nat) : List Field :=
  match k, i with
  | .eAttribute, 12 => [.s .defaultValueLiteral, .default]
  | .eReference, 12 => [.s .defaultValueLiteral, .default]
  | .eEnumLiteral, 4 => [.s .literal]
  | .eClass, 7 => [.i .classifierID]
  | .eDataType, 7 => [.i .classifierID]
  | .eEnum, 7 => [.i .classifierID]
  | k, i => reads k i

@[simp] theorem notify_kind (s : El) (n : Note) : (notify s n).kind = s.kind := by unfold notify; split <;> rfl
@[simp] theorem notify_bools (s : El) (n : Note) : (notify s n).bools = s.bools := by unfold notify; split <;> rfl
@[simp] theorem notify_ints (s : El) (n : Note) : (notify s n).ints = s.ints := by unfold notify; split <;> rfl
@[simp] theorem notify_strs (s : El) (n : Note) : (notify s n).strs = s.strs := by unfold notify; split <;> rfl
@[simp] theorem notify_refs (s : El) (n : Note) : (notify s n).refs = s.refs := by unfold notify; split <;> rfl
@[simp] theorem notify_lists (s : El) (n : Note) : (notify s n).lists = s.lists := by unfold notify; split <;> rfl
@[simp] theorem notify_computed (s : El) (n : Note) : (notify s n).computed = s.computed := by
  unfold notify; split <;> rfl
@[simp] theorem notify_idAttribute (s : El) (n : Note) : (notify s n).idAttribute = s.idAttribute := by
  unfold notify; split <;> rfl
@[simp] theorem notify_instanceClass (s : El) (n : Note) : (notify s n).instanceClass = s.instanceClass := by
  unfold notify; split <;> rfl
@[simp] theorem notify_instance (s : El) (n : Note) : (notify s n).instance_ = s.instance_ := by
  unfold notify; split <;> rfl
@[simp] theorem notify_default (s : El) (n : Note) : (notify s n).defaultValue = s.defaultValue := by
  unfold notify; split <;> rfl
@[simp] theorem notify_factory (s : El) (n : Note) :
    (notify s n).defaultValueFactory = s.defaultValueFactory := by unfold notify; split <;> rfl
@[simp] theorem notify_container (s : El) (n : Note) : (notify s n).container = s.container := by
  unfold notify; split <;> rfl
@[simp] theorem notify_containerID (s : El) (n : Note) : (notify s n).containerFeatureID = s.containerFeatureID := by
  unfold notify; split <;> rfl
@[simp] theorem notify_listening (s : El) (n : Note) : (notify s n).listening = s.listening := by
  unfold notify; split <;> rfl

theorem upTo25 {id n : Nat} (h : id < n) (hn : n ≤ 25) :
    id = 0 ∨ id = 1 ∨ id = 2 ∨ id = 3 ∨ id = 4 ∨ id = 5 ∨ id = 6 ∨ id = 7 ∨ id = 8 ∨ id = 9 ∨ id = 10 ∨ id = 11 ∨
    id = 12 ∨ id = 13 ∨ id = 14 ∨ id = 15 ∨ id = 16 ∨ id = 17 ∨ id = 18 ∨ id = 19 ∨ id = 20 ∨ id = 21 ∨ id = 22 ∨
    id = 23 ∨ id = 24 := by omega

/-- The declared features and the number of features agree. -/
theorem declared_length (k : Kind) : (declared k).length = featureCount k := by cases k <;> rfl

theorem declared_lt {k : Kind} {id : Nat} {d : Decl} (h : (declared k)[id]? = some d) : id < featureCount k := by
  rw [← declared_length]
  exact (List.getElem?_eq_some_iff.mp h).1

theorem count_le (k : Kind) : featureCount k ≤ 25 := by cases k <;> simp [featureCount]

/-- The value of a call. -/
def valueOf (r : Res (Val × El)) : Res Val := Res.map (fun p => shown p.1) r

theorem shows_iff (E : Env) (s : El) (id : Nat) (v : Val) : Shows E s id v ↔ valueOf (eGet E s id false) = .ok v := by
  unfold Shows valueOf
  constructor
  · rintro ⟨w, t, h, hw⟩
    simp [h, Res.map, hw]
  · intro h
    cases hr : eGet E s id false with
    | ok p => rw [hr] at h; exact ⟨p.1, p.2, by simp, by simpa [Res.map] using h⟩
    | panic => rw [hr] at h; simp [Res.map] at h
    | endless => rw [hr] at h; simp [Res.map] at h

theorem value_getList (s : El) (f : ListField) :
    valueOf (getList s f) = .ok (.list none ((s.lists f).getD [])) := by
  unfold getList
  cases s.lists f <;> rfl

theorem value_computed (E : Env) (s : El) (id : Nat) :
    valueOf (computedGet E s id) = .ok (.list none ((s.computed id).getD (E.classList id))) := by
  unfold computedGet
  cases s.computed id <;> rfl

theorem value_idAttribute (E : Env) (s : El) :
    valueOf (idAttributeGet E s) = .ok (shown (ofRef (s.idAttribute.or E.idAttribute))) := by
  unfold idAttributeGet
  cases s.idAttribute <;> rfl

theorem resolved_val (E : Env) (s : El) (id : Nat) (f : RefField) :
    (getResolved E s id f).1 = (s.refs f).map E.resolve := by
  unfold getResolved
  cases s.refs f with
  | none => rfl
  | some o => by_cases h : E.resolve o = o <;> simp [h]

theorem value_default (E : Env) (s t : El) (h1 : s.refs .eType = t.refs .eType)
    (h2 : s.strs .defaultValueLiteral = t.strs .defaultValueLiteral) (h3 : s.ints .upperBound = t.ints .upperBound)
    (h4 : s.defaultValue = t.defaultValue) (h5 : s.defaultValueFactory = t.defaultValueFactory) :
    (getDefaultValue E s).1 = (getDefaultValue E t).1 := by
  have frame : ∀ u : El, (getResolved E u 8 .eType).2.strs = u.strs ∧ (getResolved E u 8 .eType).2.ints = u.ints ∧
      (getResolved E u 8 .eType).2.defaultValue = u.defaultValue ∧
      (getResolved E u 8 .eType).2.defaultValueFactory = u.defaultValueFactory := by
    intro u
    unfold getResolved
    cases u.refs .eType with
    | none => simp
    | some o => by_cases h : E.resolve o = o <;> simp [h, putRef]
  obtain ⟨a1, a2, a3, a4⟩ := frame s
  obtain ⟨b1, b2, b3, b4⟩ := frame t
  simp only [getDefaultValue, resolved_val, h1, isMany, a1, a2, a3, a4, b1, b2, b3, b4, h2, h3, h4, h5]
  cases t.refs .eType with
  | none => simp
  | some o =>
    simp only [Option.map_some]
    by_cases c1 : t.strs .defaultValueLiteral = "" <;> simp only [c1, ↓reduceIte]
    · split <;> rfl
    · by_cases c2 : E.isDataType (E.resolve o) = true <;> simp only [c2, ↓reduceIte]
      · cases E.factory (E.resolve o) with
        | none => rfl
        | some f => simp only []; split <;> rfl
      · rfl

theorem value_referenceType (E : Env) (s t : El) (h1 : s.refs .eType = t.refs .eType)
    (h2 : s.refs .eReferenceType = t.refs .eReferenceType) :
    (referenceType E s false).1 = (referenceType E t false).1 := by
  simp only [referenceType, h2, h1]
  cases t.refs .eReferenceType with
  | some c => rfl
  | none =>
    cases t.refs .eType with
    | none => rfl
    | some o => simp only [Bool.false_eq_true, ↓reduceIte]; split <;> rfl

theorem value_isContainer (E : Env) (s : El) :
    (isContainer E s).1 = (match (s.refs .eOpposite).map E.resolve with
      | none => false
      | some o => E.isContainment o) := by
  simp only [isContainer, resolved_val]
  cases s.refs .eOpposite <;> rfl

theorem value_container (s t : El) (id : Nat) (h : s.container = t.container)
    (h' : s.containerFeatureID = t.containerFeatureID) :
    valueOf (containerGet s id) = valueOf (containerGet t id) := by
  simp only [containerGet, getContainer, h, h']
  split
  · cases t.container <;> rfl
  · rfl

theorem value_classifierID (E : Env) (s t : El) (h0 : s.ints .classifierID = t.ints .classifierID)
    (h : s.container = t.container) (h' : s.containerFeatureID = t.containerFeatureID) :
    valueOf ((getClassifierID E s).bind fun r => .ok (.int r.1, r.2)) =
      valueOf ((getClassifierID E t).bind fun r => .ok (.int r.1, r.2)) := by
  simp only [getClassifierID, getContainer, h, h', h0]
  split
  · split
    · cases t.container <;> rfl
    · rfl
  · rfl

theorem value_attributeType (E : Env) (s t : El) (h : s.refs .eType = t.refs .eType) :
    valueOf ((attributeType E s false).bind fun r => .ok (.obj r.1, r.2)) =
      valueOf ((attributeType E t false).bind fun r => .ok (.obj r.1, r.2)) := by
  simp only [attributeType, h, Bool.false_eq_true, ↓reduceIte]
  cases t.refs .eType with
  | none => rfl
  | some o => simp only []; split <;> rfl

theorem value_of_bool {s t : El} (f : BoolField) (h : s.bools f = t.bools f) :
    valueOf (getBool s f) = valueOf (getBool t f) := by simp [getBool, valueOf, Res.map, h]
theorem value_of_int {s t : El} (f : IntField) (h : s.ints f = t.ints f) :
    valueOf (getInt s f) = valueOf (getInt t f) := by simp [getInt, valueOf, Res.map, h]
theorem value_of_str {s t : El} (f : StrField) (h : s.strs f = t.strs f) :
    valueOf (getStr s f) = valueOf (getStr t f) := by simp [getStr, valueOf, Res.map, h]
theorem value_of_ref {s t : El} (f : RefField) (h : s.refs f = t.refs f) :
    valueOf (getRef s f) = valueOf (getRef t f) := by simp [getRef, valueOf, Res.map, h]
theorem value_of_list {s t : El} (f : ListField) (h : (s.lists f).getD [] = (t.lists f).getD []) :
    valueOf (getList s f) = valueOf (getList t f) := by simp [value_getList, h]
theorem value_of_computed (E : Env) {s t : El} (id : Nat) (h : s.computed id = t.computed id) :
    valueOf (computedGet E s id) = valueOf (computedGet E t id) := by simp [value_computed, h]
theorem value_of_ok {a b : Val} {s t : El} (h : a = b) :
    valueOf (.ok (a, s)) = valueOf (.ok (b, t)) := by simp [valueOf, Res.map, h]

macro "split25 " h:ident : tactic => `(tactic|
  (rcases $h:ident with $h:ident | $h:ident | $h:ident | $h:ident | $h:ident | $h:ident | $h:ident | $h:ident |
    $h:ident | $h:ident | $h:ident | $h:ident | $h:ident | $h:ident | $h:ident | $h:ident | $h:ident | $h:ident |
    $h:ident | $h:ident | $h:ident | $h:ident | $h:ident | $h:ident | $h:ident) <;> subst $h:ident)

set_option maxHeartbeats 2000000 in
/-- What `EGet` shows depends on the places it reads only. -/
theorem value_congr (E : Env) (s t : El) (id : Nat) (hk : s.kind = t.kind) (hid : id < featureCount s.kind)
    (h : ∀ f ∈ reads s.kind id, Agree s t f) : valueOf (eGet E s id false) = valueOf (eGet E t id false) := by
  have hlt := upTo25 hid (count_le _)
  unfold eGet
  rw [← hk]
  cases hs : s.kind <;> rw [hs] at h hid <;> simp only [featureCount] at hid <;> split25 hlt <;>
    first
    | omega
    | exact value_of_bool _ (h (.b _) (.head _))
    | exact value_of_int _ (h (.i _) (.head _))
    | exact value_of_str _ (h (.s _) (.head _))
    | exact value_of_list _ (h (.l _) (.head _))
    | exact value_of_ref _ (h (.r _) (.head _))
    | exact value_of_computed E _ (h (.computed _) (.head _))
    | exact value_container s t _ (h .container (.head _)).1 (h .container (.head _)).2
    | exact value_classifierID E s t (h (.i .classifierID) (.head _)) (h .container (.tail _ (.head _))).1
        (h .container (.tail _ (.head _))).2
    | exact value_attributeType E s t (h (.r .eType) (.head _))
    | exact value_of_ok (by rw [value_isContainer, value_isContainer,
        show s.refs .eOpposite = t.refs .eOpposite from h (.r .eOpposite) (.head _)])
    | exact value_of_ok (by rw [isMany, isMany,
        show s.ints .upperBound = t.ints .upperBound from h (.i .upperBound) (.head _)])
    | exact value_of_ok (by rw [isRequired, isRequired,
        show s.ints .lowerBound = t.ints .lowerBound from h (.i .lowerBound) (.head _)])
    | exact value_of_ok (congrArg ofType (h .instanceClass (.head _)))
    | exact value_of_ok (h .instance_ (.head _))
    | exact value_of_ok (by rw [getLiteral, getLiteral,
        show s.strs .literal = t.strs .literal from h (.s .literal) (.head _),
        show s.strs .name = t.strs .name from h (.s .name) (.tail _ (.head _))])
    | exact value_of_ok (by rw [classifierDefault, classifierDefault, ← hk, hs])
    | exact value_of_ok (value_default E s t (h (.r .eType) (.head _))
        (h (.s .defaultValueLiteral) (.tail _ (.head _))) (h (.i .upperBound) (.tail _ (.tail _ (.head _))))
        (h .default (.tail _ (.tail _ (.tail _ (.head _))))).1 (h .default (.tail _ (.tail _ (.tail _ (.head _))))).2)
    | exact value_of_ok (by rw [value_referenceType E s t (h (.r .eType) (.tail _ (.head _)))
        (h (.r .eReferenceType) (.head _))])
    | exact (value_idAttribute E s).trans (by
        rw [show s.idAttribute = t.idAttribute from h .idAttribute (.head _)]; exact (value_idAttribute E t).symm)

end Verif.Reflect
