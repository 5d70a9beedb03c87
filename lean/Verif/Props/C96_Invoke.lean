import Verif.Proofs.Invoke
/-!
# C96: Invoking an operation by reflection calls the method it stands for

`EInvoke(operation, arguments)` on an object whose class has the operation calls the method of that operation with those arguments; an operation
the class does not have is an error.

Proved for classes with one super type at most, of any depth, and for each class and operation of the Ecore model. It fails for a class with two
super types, for nil given as an object, for the operations of `EObject`, for dynamic objects, and once operations were added to a super type.
-/
namespace Verif.Props
open Verif.Invoke Verif.Spec.Invoke

variable {C O : Type} [DecidableEq C] [DecidableEq O]

/-- For every hierarchy of classes with one super type at most and the code generated for it: any operation of the class of the object, own or
inherited, is called with the arguments. -/
theorem C96_invoke_partial {code : Code C O} {M : Classes C O} {count rank : C → Nat} (g : Generated code M count rank) {n : Nat} {k : C} {o : O}
    (hn : rank k < n) (ho : Has M k o) (args : List (Val C)) (ha : Conforms code.implements (code.params o) args) (hv : NoNil (code.params o) args) :
    invoke code M n k o args = .called o args := by
  rw [invoke_has g hn ho, call, arguments_of _ _ ha hv]

/-- An operation the class does not have: a panic, and nothing is called. -/
theorem C96_foreign {code : Code C O} {M : Classes C O} {count rank : C → Nat} (g : Generated code M count rank) {n : Nat} {k : C} {o : O}
    (hn : rank k < n) (ho : ¬Has M k o) (args : List (Val C)) : invoke code M n k o args = .panic :=
  invoke_hasnot g hn ho args

/-- Whatever the arguments are: a method is called only for the operation that was asked for, with the arguments that were given, one for each parameter and of
its type. -/
theorem C96_typed {code : Code C O} {M : Classes C O} {count rank : C → Nat} (g : Generated code M count rank) {n : Nat} {k : C} {o p : O}
    (hn : rank k < n) (args vs : List (Val C)) (h : invoke code M n k o args = .called p vs) :
    p = o ∧ Has M k o ∧ vs = args.take (code.params o).length ∧ Conforms code.implements (code.params o) vs := by
  by_cases ho : Has M k o
  · rw [invoke_has g hn ho, call] at h
    split at h
    · next ws hw =>
      cases h
      obtain ⟨h1, h2⟩ := arguments_sound _ _ _ hw
      exact ⟨rfl, ho, h1, h2⟩
    · cases h
  · rw [invoke_hasnot g hn ho] at h
    cases h

/-- What may be given for a parameter that is an element of the Ecore model: the elements of its class and of the classes under it; any element for `EObject`. -/
theorem C96_ecore_types (k c : EC) : ecoreCode.implements k c = true ↔ c = .eObject ∨ Inherits ecoreClasses.supers k c := by
  constructor
  · intro h
    simp only [ecoreCode, ecoreImplements, Bool.or_eq_true, beq_iff_eq, List.any_eq_true] at h
    rcases h with (h | h) | ⟨d, hd, h | ⟨e, he, h | ⟨f, hf, h | ⟨g, hg, h⟩⟩⟩⟩
    · exact Or.inl h
    · subst h; exact Or.inr (.refl _)
    · subst h; exact Or.inr (.up hd (.refl _))
    · subst h; exact Or.inr (.up hd (.up he (.refl _)))
    · subst h; exact Or.inr (.up hd (.up he (.up hf (.refl _))))
    · subst h; exact Or.inr (.up hd (.up he (.up hf (.up hg (.refl _)))))
  · rintro (h | h)
    · subst h; cases k <;> rfl
    · induction h with
      | refl c => cases c <;> rfl
      | up hc _ ih =>
        rename_i k d c _
        cases k <;> simp only [ecoreClasses, ecoreSupers, List.mem_singleton, List.not_mem_nil] at hc <;> subst hc <;> cases c <;> first | rfl | exact absurd ih (by decide)

example : ecoreCode.implements .eEnum .eNamedElement = true ∧ ecoreCode.implements .eNamedElement .eEnum = false := by decide

/-- Each element of the Ecore model, and each operation of its class. -/
theorem C96_ecore_partial {k : EC} {o : EO} (ho : Has ecoreClasses k o) (args : List (Val EC))
    (ha : Conforms ecoreCode.implements (ecoreParams o) args) (hv : NoNil (ecoreParams o) args) :
    invoke ecoreCode ecoreClasses 5 k o args = .called o args :=
  C96_invoke_partial ecore_generated (ecoreRank_lt k) ho args ha hv

/-- nil may be given to the method for any object, but not by reflection: always a panic. -/
theorem C96_nil_violated {code : Code C O} {M : Classes C O} {count rank : C → Nat} (g : Generated code M count rank) {n : Nat} {k : C} {o : O}
    (hn : rank k < n) (ho : Has M k o) (args : List (Val C)) {i : Nat} {c : C} (hp : (code.params o)[i]? = some (.object c))
    (ha : args[i]? = some .nil) : invoke code M n k o args = .panic := by
  rw [invoke_has g hn ho, call, arguments_nil _ _ i c hp ha]

/-- The operations of `EObject` panic on each element of the Ecore model, although each has the methods. -/
theorem C96_eobject_violated {k : EC} {o : EO} (hk : k ≠ .eObject) (ho : o ∈ ecoreOwn .eObject) (args : List (Val EC)) :
    ecoreCode.implements k .eObject = true ∧ invoke ecoreCode ecoreClasses 5 k o args = .panic :=
  ⟨by cases k <;> rfl, invoke_hasnot ecore_generated (ecoreRank_lt k) (inherits_eObject hk ho) args⟩

/-- Two super types: the first operations of both have the same number, so that, whatever the code of the switch, invoking one does the same as
invoking the other. -/
theorem C96_two_supers_violated (code : Code C O) (M : Classes C O) {k a b : C} {x y : O} {xs ys : List O} (n : Nat) (hk : M.supers k = [a, b])
    (ha : M.supers a = []) (hb : M.supers b = []) (hx : M.own a = x :: xs) (hy : M.own b = y :: ys) (dx : M.decl x = a) (dy : M.decl y = b)
    (args : List (Val C)) : invoke code M (n + 2) k x args = invoke code M (n + 2) k y args :=
  invoke_same code M n hk ha hb hx hy dx dy args

/-- A dynamic object: no operation of its class does anything; nil is given back. -/
theorem C96_dynamic_violated {code : Code C O} {M : Classes C O} {count rank : C → Nat} (g : Generated code M count rank) {n : Nat} {k : C} {o : O}
    (hn : rank k < n) (ho : Has M k o) : invokeDynamic M n k o = .nothing :=
  invokeDynamic_has g hn ho

/-- A dynamic object: an operation its class does not have is an error. -/
theorem C96_dynamic_foreign {code : Code C O} {M : Classes C O} {count rank : C → Nat} (g : Generated code M count rank) {n : Nat} {k : C} {o : O}
    (hn : rank k < n) (ho : ¬Has M k o) : invokeDynamic M n k o = .panic := by
  have h : o ∉ (allOps M n k).drop (opID M n o) := fun h => ho ((mem_allOps g n k o hn).mp (List.mem_of_mem_drop h))
  unfold invokeDynamic classOpID
  rw [if_neg h]

/-- `GetOperationID` of a class: the place of the operation, own or inherited, among all operations of the class; none if the class does not have it. -/
theorem C96_number_partial {code : Code C O} {M : Classes C O} {count rank : C → Nat} (g : Generated code M count rank) {n : Nat} {k : C} {o : O}
    (hn : rank k < n) : (Has M k o → ∃ i, classOpID M n k o = some i ∧ (allOps M n k)[i]? = some o) ∧ (¬Has M k o → classOpID M n k o = none) := by
  constructor
  · intro ho
    obtain ⟨d, h1, h2⟩ := ho
    have h3 := (inherits_rank g h1).1
    have h4 := allOps_getElem g n h2 k h1 hn
    have h5 := opID_eq (n := n) g (by omega) h2
    rw [← h5] at h4
    obtain ⟨hl, hv⟩ := List.getElem?_eq_some_iff.mp h4
    have hd : (allOps M n k).drop (opID M n o) = o :: (allOps M n k).drop (opID M n o + 1) := by
      rw [List.drop_eq_getElem_cons hl, hv]
    refine ⟨opID M n o, ?_, h4⟩
    unfold classOpID
    rw [hd]
    simp
  · intro ho
    have h : o ∉ (allOps M n k).drop (opID M n o) := fun h => ho ((mem_allOps g n k o hn).mp (List.mem_of_mem_drop h))
    unfold classOpID
    rw [if_neg h]

/-! ### Concrete cases -/

/-- class 0 with the operation 10, and class 1 under it with 20 and 21 -/
def exClasses : Classes Nat Nat :=
  ⟨fun c => if c = 1 then [0] else [], fun c => if c = 0 then [10] else if c = 1 then [20, 21] else [], fun o => if o < 20 then 0 else 1⟩

/-- the code for it; 20 takes an object of class 0, 21 an int -/
def exCode : Code Nat Nat :=
  ⟨fun c => if c = 1 then some 0 else none, fun c => if c = 0 then [(0, 10)] else if c = 1 then [(1, 20), (2, 21)] else [],
    fun o => if o = 20 then [.object 0] else if o = 21 then [.int] else [], fun k c => k == c || k == 1 && c == 0⟩

/-- The operation 11 was added to class 0 when the program runs: invoking 20 now calls 21. -/
theorem C96_added_violated : ∃ (code : Code Nat Nat) (M M' : Classes Nat Nat), M'.supers = M.supers ∧ M'.own 0 = M.own 0 ++ [11] ∧ M'.own 1 = M.own 1 ∧
    code.params 20 = code.params 21 ∧ (∀ i, invoke code M 2 1 20 [.int i] = .called 20 [.int i]) ∧
    ∀ i, invoke code M' 2 1 20 [.int i] = .called 21 [.int i] :=
  ⟨{ exCode with params := fun _ => [.int] }, exClasses, { exClasses with own := fun c => if c = 0 then [10, 11] else if c = 1 then [20, 21] else [] },
    rfl, rfl, rfl, rfl, fun _ => rfl, fun _ => rfl⟩

/-- the hypotheses of `C96_invoke_partial` are met -/
theorem exGenerated : Generated exCode exClasses (fun c => if c = 1 then 1 else 0) id where
  supers := by intro c; simp only [exCode, exClasses]; split <;> rfl
  acyclic := by intro c d h; simp only [exCode] at h; split at h <;> simp_all <;> omega
  decl := by
    intro o c h
    simp only [exClasses] at h ⊢
    split at h
    · simp at h; subst_vars; rfl
    · split at h
      · simp at h; rcases h with h | h <;> subst_vars <;> rfl
      · simp at h
  nodup := by intro c; simp only [exClasses]; split <;> (try split) <;> decide
  first := by intro c h; simp only [exCode] at h; split at h <;> simp_all
  next := by intro c d h; simp only [exCode] at h; split at h <;> simp_all [exClasses]; subst_vars; rfl
  cases := by
    intro c id o
    refine cases_of ?_ ?_ id o <;> simp only [exCode, exClasses] <;> (split <;> (try split)) <;> simp_all <;> decide

example : Has exClasses 1 10 := ⟨0, .up (by decide) (.refl 0), by decide⟩
example : invoke exCode exClasses 2 1 10 [] = .called 10 [] := by decide
example : invoke exCode exClasses 2 1 20 [.object 1 7] = .called 20 [.object 1 7] := by decide
example : Conforms exCode.implements (exCode.params 20) [.object 1 7] :=
  ⟨rfl, fun i t v h1 h2 => by
    cases i with
    | zero => cases h1; cases h2; exact .object 0 1 7 rfl
    | succ i => cases h1⟩
-- nil, and an argument of another type
example : invoke exCode exClasses 2 1 20 [.nil] = .panic := by decide
example : invoke exCode exClasses 2 1 21 [.string "a"] = .panic := by decide
-- an operation of the class below
example : invoke exCode exClasses 2 0 21 [.int 1] = .panic := by decide
-- an enumeration: own, inherited by two and by four steps
example : invoke ecoreCode ecoreClasses 5 .eEnum .getEEnumLiteralByLiteral [.string "a"] = .called .getEEnumLiteralByLiteral [.string "a"] := by decide
example : invoke ecoreCode ecoreClasses 5 .eEnum .isInstance [.nil] = .called .isInstance [.nil] := by decide
example : invoke ecoreCode ecoreClasses 5 .eEnum .getEAnnotation [.string "a"] = .called .getEAnnotation [.string "a"] := by decide
example : Has ecoreClasses .eEnum .getEAnnotation :=
  ⟨.eModelElement, .up (c := .eDataType) (by decide) (.up (c := .eClassifier) (by decide) (.up (c := .eNamedElement) (by decide)
    (.up (c := .eModelElement) (by decide) (.refl _)))), by decide⟩
example : invoke ecoreCode ecoreClasses 5 .eFactory .createFromString [.object .eEnum 3, .string "a"] =
    .called .createFromString [.object .eEnum 3, .string "a"] := by decide
example : invoke ecoreCode ecoreClasses 5 .eClass .isSuperTypeOf [.nil] = .panic := by decide
example : invoke ecoreCode ecoreClasses 5 .eClass .eContainer [] = .panic := by decide
example : invokeDynamic exClasses 2 1 21 = .nothing := by decide
example : invokeDynamic exClasses 2 0 21 = .panic := by decide
example : classOpID exClasses 2 1 21 = some 2 ∧ allOps exClasses 2 1 = [10, 20, 21] ∧ classOpID exClasses 2 0 21 = none := by decide

/-- class 2 under 0 and 1, of which 0 has the operation 10 and 1 has 20 -/
def exTwo : Classes Nat Nat := ⟨fun c => if c = 2 then [0, 1] else [], fun c => if c = 0 then [10] else if c = 1 then [20] else [], fun o => if o = 10 then 0 else 1⟩

example : invoke ⟨fun _ => none, fun c => if c = 2 then [(0, 10), (1, 20)] else [], fun _ => [], fun _ _ => true⟩ exTwo 3 2 20 [] = .called 10 [] := by decide

end Verif.Props
