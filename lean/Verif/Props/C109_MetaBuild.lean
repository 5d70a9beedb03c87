import Verif.Proofs.MetaBuild

/-!
# C109: A metamodel built by program is the one the program describes

`prog` is any sequence of the calls `Create…`, `Create…FromContainer`,
`Create…FromContainerAndClassID` of the Ecore factory and `InitEClass`,
`InitEAttribute`, `InitEReference`, `InitEOperation`, `AddEParameter`, `InitEDataType`,
`InitEEnum`, `AddEEnumLiteral` of packages.  `Verif/Spec/MetaBuild.lean` reads off the
calls which elements there are (`elements`), where they are (`placed`), what is said of
them last (`described`), and which calls make sense (`Sensible`).
-/

namespace Verif.MetaBuild

/-- Every getter of every element returns what the program said last of it, or what
Ecore defines if it said nothing; what is said of one element is not seen on others. -/
theorem C109_values (conv : String → String → Option Nat) (prog : List Call) (s : St)
    (h : run conv {} prog = some s) (e : Nat) (x : Elem) (hx : s.heap[e]? = some x)
    (f : Field) : x.get f = described conv prog e f :=
  (inv_prog h).vals e x f hx

/-- There are exactly the elements that were created; each is of the kind, in the
container and with the ID it was created with. -/
theorem C109_elements (conv : String → String → Option Nat) (prog : List Call) (s : St)
    (h : run conv {} prog = some s) :
    s.heap.length = (elements prog).length ∧
    ∀ (e : Nat) k c i, (elements prog)[e]? = some (k, c, i) →
      ∃ x, s.heap[e]? = some x ∧ x.kind = k ∧ x.container = c ∧ x.ident = i.getD (-1) := by
  have hi := inv_prog h
  refine ⟨hi.len, fun e k c i he => ?_⟩
  have hlt : e < s.heap.length := by
    rw [hi.len]; exact (List.getElem?_eq_some_iff.mp he).1
  refine ⟨s.heap[e], List.getElem?_eq_getElem hlt, ?_⟩
  have := hi.place e _ (List.getElem?_eq_getElem hlt)
  rw [he] at this
  simp only [Option.map_some, Option.some.injEq, Prod.mk.injEq] at this
  exact ⟨this.1.symm, this.2.1.symm, this.2.2.symm⟩

/-- The lists of an element hold what was created in it, each once, in the order of
creation, and nothing else. -/
theorem C109_lists (conv : String → String → Option Nat) (prog : List Call) (s : St)
    (h : run conv {} prog = some s) (e : Nat) (x : Elem) (hx : s.heap[e]? = some x)
    (sl : Slot) : x.kids sl = placed prog e sl ∧ (x.kids sl).Nodup := by
  have := (inv_prog h).kids e x sl hx
  refine ⟨this, ?_⟩
  rw [this]
  unfold placed
  exact List.nodup_range.filter _

/-- A program runs to its end exactly if each of its calls makes sense at its place. -/
theorem C109_runs (conv : String → String → Option Nat) (prog : List Call) :
    (∃ s, run conv {} prog = some s) ↔
      ∀ a c b, prog = a ++ c :: b → Sensible conv (elements a) c := by
  have := run_isSome (conv := conv) prog inv_init
  rw [Option.isSome_iff_exists] at this
  simpa using this

/-- `GetClassifierID` of a classifier that was created with an ID (not -1) is this ID.
Of one created in a package without an ID it is the position among the classifiers of
the package. -/
theorem C109_classifierID (conv : String → String → Option Nat) (prog : List Call) (s : St)
    (h : run conv {} prog = some s) (e : Nat) (k : Kind)
    (hk : k = .class ∨ k = .dataType ∨ k = .enum) (c : Option Nat) (i : Option Int)
    (he : (elements prog)[e]? = some (k, c, i)) :
    (∀ v, i = some v → v ≠ -1 → classifierID s e = v) ∧
    (∀ p, i = none → c = some p →
      ∃ j : Nat, classifierID s e = j ∧ (placed prog p .classifiers)[j]? = some e) := by
  obtain ⟨hlen, hall⟩ := C109_elements conv prog s h
  obtain ⟨x, hx, hxk, hxc, hxi⟩ := hall e k c i he
  constructor
  · rintro v rfl hv
    have : x.ident = v := by simpa using hxi
    simp [classifierID, hx, this, hv]
  · rintro p rfl rfl
    have hid : x.ident = -1 := by simpa using hxi
    have hsl : listOf k = .classifiers := by rcases hk with rfl | rfl | rfl <;> rfl
    have hmem := placed_mem he
    rw [hsl] at hmem
    have hp : p < s.heap.length := by
      have := (inv_prog h).ordered e _ _ _ he
      have := (List.getElem?_eq_some_iff.mp hx).1
      omega
    have hkids := (C109_lists conv prog s h p _ (List.getElem?_eq_getElem hp) .classifiers).1
    refine ⟨(placed prog p .classifiers).idxOf e, ?_, ?_⟩
    · simp only [classifierID, hx, hid, if_true, hxc, List.getElem?_eq_getElem hp, hkids, hmem]
    · rw [List.getElem?_eq_some_iff]
      exact ⟨List.idxOf_lt_length_of_mem hmem, List.getElem_idxOf _⟩

/-- An element of which one call speaks is as this call says, and where the call says
nothing as Ecore defines. -/
theorem C109_once_partial (conv : String → String → Option Nat) (prog : List Call) (s : St)
    (h : run conv {} prog = some s) (a b : List Call) (c : Call) (e : Nat)
    (hp : prog = a ++ c :: b) (hs : subject (elements a).length c = some e)
    (ho : ∀ a' c' b', prog = a' ++ c' :: b' → subject (elements a').length c' = some e →
      a'.length = a.length)
    (x : Elem) (hx : s.heap[e]? = some x) (f : Field) :
    x.get f = (says conv c f).getD (unsaid f) := by
  rw [C109_values conv prog s h e x hx f, described_once f hp hs ho]

/-- `GetLiteral` of a literal added to an enumeration is its literal, or its name if
the literal is empty; its value and its place are those of the call. -/
theorem C109_literal (conv : String → String → Option Nat) (prog a b : List Call) (s : St)
    (h : run conv {} prog = some s) (en : Nat) (n l : String) (v : Int) (iv : Option Nat)
    (hp : prog = a ++ .addLiteral en n l v iv :: b) :
    ∃ x, s.heap[(elements a).length]? = some x ∧ x.kind = .literal ∧ x.container = some en ∧
      getLiteral x = (if l = "" then n else l) ∧ x.name = n ∧ x.value = v ∧ x.inst = iv := by
  have hi := inv_prog h
  have he : (elements prog)[(elements a).length]? = some (.literal, some en, none) := by
    subst hp
    simp [elements, List.filterMap_append, made]
  obtain ⟨x, hx, hk, hc, -⟩ := (C109_elements conv prog s h).2 _ _ _ _ he
  have hsens := (C109_runs conv prog).mp ⟨s, h⟩
  have ho : ∀ a' c' b', prog = a' ++ c' :: b' →
      subject (elements a').length c' = some (elements a).length → a'.length = a.length := by
    intro a' c' b' hp' hs'
    rcases Nat.lt_trichotomy a'.length a.length with hl | hl | hl
    · exfalso
      -- an earlier call speaks of earlier elements
      have hpre : a' ++ [c'] <+: a := by
        have h1 : a' ++ [c'] <+: prog := ⟨b', by simp [hp']⟩
        have h2 : a <+: prog := ⟨_, hp.symm⟩
        exact List.prefix_of_prefix_length_le h1 h2 (by simp; omega)
      obtain ⟨r, hr⟩ := hpre
      have hlen : (elements (a' ++ [c'])).length ≤ (elements a).length := by
        rw [← hr]
        simp only [elements, List.filterMap_append, List.length_append]
        omega
      rw [elements_snoc] at hlen
      have hS := hsens a' c' b' hp'
      have hlt : ∀ {k : Kind}, (elements a')[(elements a).length]?.map (·.1) = some k → False := by
        intro k hk
        have : (elements a')[(elements a).length]? = none :=
          List.getElem?_eq_none (by simp at hlen; omega)
        simp [this] at hk
      cases c' <;> simp only [subject, Option.some.injEq, reduceCtorEq] at hs' <;>
        first
        | (simp [made] at hlen; omega)
        | (subst hs'; exact hlt hS)
        | (subst hs'; exact hlt hS.1)
    · exact hl
    · exfalso
      have hS := hsens a' c' b' hp'
      have hpre : a ++ [.addLiteral en n l v iv] <+: a' := by
        have h1 : a ++ [.addLiteral en n l v iv] <+: prog := ⟨b, by simp [hp]⟩
        have h2 : a' <+: prog := ⟨_, hp'.symm⟩
        exact List.prefix_of_prefix_length_le h1 h2 (by simp; omega)
      obtain ⟨r, hr⟩ := hpre
      have he' : (elements a')[(elements a).length]? = some (.literal, some en, none) := by
        rw [← hr]
        simp [elements, List.filterMap_append, made]
      have hlt := (List.getElem?_eq_some_iff.mp he').1
      cases c' <;> simp only [subject, Option.some.injEq, reduceCtorEq] at hs' <;>
        simp_all [Sensible]
  have hv := fun f => C109_once_partial conv prog s h a b _ _ hp (by simp [subject]) ho x hx f
  have h1 := hv .name
  have h2 := hv .literal
  have h3 := hv .value
  have h4 := hv .inst
  simp only [Elem.get, says, Option.getD_some, Val.str.injEq, Val.int.injEq, Val.any.injEq]
    at h1 h2 h3 h4
  refine ⟨x, hx, hk, hc, ?_, h1, h3, h4⟩
  unfold getLiteral
  rw [h1, h2]
  simp [String.length_eq_zero_iff]

/-- `IsContainer` of a reference is true exactly if the reference was last said to have
an opposite, and this one was last said to be a containment. -/
theorem C109_container (conv : String → String → Option Nat) (prog : List Call) (s : St)
    (h : run conv {} prog = some s) (e : Nat) (x : Elem) (hx : s.heap[e]? = some x) :
    isContainer s x = true ↔
      ∃ o, o < (elements prog).length ∧ described conv prog e .opposite = .elem (some o) ∧
        described conv prog o .containment = .bool true := by
  have hv := C109_values conv prog s h
  have hl := (C109_elements conv prog s h).1
  rw [← hv e x hx .opposite]
  unfold isContainer
  simp only [Elem.get, Val.elem.injEq]
  cases ho : x.opposite with
  | none => simp
  | some o =>
    cases hy : s.heap[o]? with
    | none =>
      have : ¬ o < s.heap.length := by
        simpa using List.getElem?_eq_none_iff.mp hy
      simp only [hy, Bool.false_eq_true, Option.some.injEq, false_iff]
      rintro ⟨o', ho', rfl, -⟩
      omega
    | some y =>
      have hlt := (List.getElem?_eq_some_iff.mp hy).1
      have := hv o y hy .containment
      simp only [Elem.get] at this
      simp only [Option.some.injEq, hy]
      constructor
      · intro hc
        exact ⟨o, by omega, rfl, by rw [← this, hc]⟩
      · rintro ⟨o', -, rfl, hc⟩
        rw [hc] at this
        simpa using this

section Examples

def exConv (t d : String) : Option Nat := if t = "int" then some d.length else none

def exTyped (n : String) (t : Option Nat) : Typed :=
  { type := t, name := n, lower := 0, upper := (-1), unique := true, ordered := false }

def exFeature (n : String) (t : Option Nat) : Feature :=
  { exTyped n t with
    defaultLiteral := "", transient := false, volatile := true, changeable := true,
    unsettable := false, derived := false }

/-- A package with a class, a data type and an enumeration; the class has two
references that are opposites, and an operation. -/
def exProg : List Call :=
  [.create .package none none, .create .class (some 0) (some 7),
   .create .reference (some 1) (some 0), .create .reference (some 1) (some 1),
   .create .operation (some 1) none, .create .dataType (some 0) none,
   .create .enum (some 0) none,
   .initClass 1 "Node" "Node" false false,
   .initReference 2 (exFeature "children" (some 1)) (some 3) true true,
   .initReference 3 (exFeature "parent" (some 1)) (some 2) false false,
   .initOperation 4 (exTyped "find" (some 1)), .addParameter 4 (exTyped "name" (some 5)),
   .initDataType 0 5 "Size" "int" "12" true,
   .initEnum 6 "Color" "Color", .addLiteral 6 "RED" "" 0 none,
   .addLiteral 6 "GREEN" "green" 1 (some 3)]

example : ∃ s, run exConv {} exProg = some s ∧ s.heap.length = 10 ∧
    (s.heap[1]?.map fun x => (x.kids .features, x.kids .operations)) = some ([2, 3], [4]) ∧
    (s.heap[0]?.map fun x => x.kids .classifiers) = some [1, 5, 6] ∧
    (s.heap[6]?.map fun x => x.kids .literals) = some [8, 9] ∧
    (s.heap[7]?.map fun x => (x.name, x.type)) = some ("name", some 5) ∧
    (s.heap[8]?.map getLiteral) = some "RED" ∧
    (s.heap[3]?.map fun x => isContainer s x) = some true ∧
    (s.heap[5]?.map fun x => x.default) = some (some 2) ∧
    classifierID s 1 = 7 ∧ classifierID s 6 = 2 :=
  ⟨_, rfl, rfl, rfl, rfl, rfl, rfl, by decide, rfl, rfl, by decide, by decide⟩

/-- A data type of which `InitEDataType` says last that it has no default value: it
keeps the one that was said before. -/
theorem C109_again_violated : ∃ prog s x, run exConv {} prog = some s ∧
    s.heap[1]? = some x ∧ prog.getLast? = some (.initDataType 0 1 "Size" "int" "" true) ∧
    x.get .default = .any (some 2) :=
  ⟨[.create .package none none, .create .dataType (some 0) none,
    .initDataType 0 1 "Size" "int" "12" true, .initDataType 0 1 "Size" "int" "" true],
   _, _, rfl, rfl, rfl, rfl⟩

/-- One call with an opposite is not enough to make two references opposites: the
other end has none. -/
theorem C109_opposite_violated : ∃ prog s x y, run exConv {} prog = some s ∧
    s.heap[2]? = some x ∧ s.heap[3]? = some y ∧
    x.get .opposite = .elem (some 3) ∧ y.get .opposite = .elem none :=
  ⟨[.create .package none none, .create .class (some 0) none,
    .create .reference (some 1) none, .create .reference (some 1) none,
    .initReference 3 (exFeature "parent" (some 1)) none false true,
    .initReference 2 (exFeature "children" (some 1)) (some 3) true true],
   _, _, _, rfl, rfl, rfl, rfl, rfl⟩

/-- A call of `InitEDataType` that gives a default value on a package other than the one
the data type is in panics. -/
theorem C109_foreign (conv : String → String → Option Nat) (prog : List Call)
    (p e : Nat) (n t d : String) (z : Bool) (hd : d ≠ "") (k : Kind) (c : Option Nat)
    (i : Option Int) (he : (elements prog)[e]? = some (k, c, i)) (hp : c ≠ some p) :
    run conv {} (prog ++ [.initDataType p e n t d z]) = none := by
  cases hr : run conv {} (prog ++ [.initDataType p e n t d z]) with
  | none => rfl
  | some s =>
    have := (C109_runs conv _).mp ⟨s, hr⟩ prog _ [] rfl
    simp only [Sensible, he, Option.map_some, Option.some.injEq] at this
    exact absurd (this.2.2 hd).1 hp

example : run exConv {} ([.create .package none none, .create .package none none,
    .create .dataType (some 0) none] ++ [.initDataType 1 2 "Size" "int" "12" true]) = none := by
  apply C109_foreign (k := .dataType) (c := some 0) (i := none)
  · decide
  · rfl
  · decide

end Examples

end Verif.MetaBuild
