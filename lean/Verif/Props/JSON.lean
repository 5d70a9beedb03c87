import Verif.Proofs.JSON
/-
C69: A JSON document tells what was saved.

There is no reader of JSON documents in the code, so the property is about what a
reader could find out: documents of objects that differ are different, and no object
in a document has a key twice.  It is so for clean objects; it is not when a resource
has a second root, when something set is nil, or when an object that is referred to is
in no resource.
-/
namespace Verif.JSON
open Verif.JSON.Spec

/-- **C69** (partial).  If two objects, in two worlds with the same metamodel, are
written as the same document then they look the same to any depth: the same classes,
IDs, features that are set and values, in the same order.  What is missing: values that
are not clean, and all but the first root of a resource. -/
theorem C69_tells_partial (opt : Options) (v w : World) (sameMeta : SameMeta v w)
    (cleanV : Clean opt v) (cleanW : Clean opt w) (m n a b : Nat) (doc : Doc)
    (ha : encodeResource opt v m [a] = some (some doc))
    (hb : encodeResource opt w n [b] = some (some doc)) (depth : Nat) :
    Same opt v w depth a b := by
  simp only [encodeResource, Option.map_eq_some_iff, Option.some.injEq, exists_eq_right] at ha hb
  exact same_of_doc sameMeta cleanV cleanW m n a b doc depth ha hb

/-- **C69** (partial).  No object in a document that is written has a key twice, at any
depth.  What is missing: features named like one of the keys of the encoder, see
`C69_names_violated`. -/
theorem C69_readable_partial (opt : Options) (w : World) (clean : Clean opt w) (n : Nat)
    (contents : List Nat) (doc : Doc)
    (h : encodeResource opt w n contents = some (some doc)) : Readable doc := by
  cases contents with
  | nil => simp [encodeResource] at h
  | cons o rest =>
    simp only [encodeResource, Option.map_eq_some_iff, Option.some.injEq, exists_eq_right] at h
    exact readable clean n o doc h

/-- **C69** (partial).  A document is written of any object from which no chain of
contained objects, or of objects in references that know no proxies, goes on for ever.
What is missing: the other objects, see `C69_cycle_violated`. -/
theorem C69_written_partial (opt : Options) (w : World)
    (fits : ∀ (o : Nat) (f : Feature), f ∈ (w.cls o).features → Fits f (w.value o f))
    (noNil : ∀ (o : Nat) (f : Feature), f ∈ (w.cls o).features → w.isSet o f = true →
      w.value o f ≠ .object none)
    (height : Nat → Nat) (falls : ∀ a c : Nat, Child w a c → height c < height a)
    (o : Nat) (rest : List Nat) :
    ∃ (n : Nat) (doc : Doc), encodeResource opt w n (o :: rest) = some (some doc) := by
  obtain ⟨d, hd⟩ := ends (opt := opt) fits noNil height falls (height o + 1) o (by omega)
  exact ⟨height o + 1, d, by simp [encodeResource, hd]⟩

section Examples

def fName : Feature := ⟨"name", false, false, false, false, false, false⟩
def fTags : Feature := ⟨"tags", false, false, false, false, true, false⟩
def fBooks : Feature := ⟨"books", false, true, true, false, true, true⟩
def fNext : Feature := ⟨"next", false, true, false, false, false, true⟩
def fOwner : Feature := ⟨"owner", false, true, false, true, false, true⟩

def library : Class := ⟨"http://lib", "Library", [fName, fBooks]⟩
def book : Class := ⟨"http://lib", "Book", [fName, fTags, fNext, fOwner]⟩

/-- Library 0 with two books, 1 and 2, which refer to each other; the other objects are
books without anything. -/
def lib (title : Nat) : World where
  cls o := if o = 0 then library else book
  isSet o f := o < 3 && (f == fName || f == fBooks || f == fNext)
  value o f :=
    if f = fName then .data (some (if o = 1 then title else o))
    else if f = fTags then .datas []
    else if f = fBooks then .objects [1, 2]
    else if f = fNext then .object (if o = 1 then some 2 else if o = 2 then some 1 else none)
    else .object (some 0)
  id _ := none
  reference o := some (if o = 1 then "#//@books.0" else "#//@books.1")
  convert _ n := String.ofList (List.replicate n 'x')

def noIDs : Options := ⟨"", false⟩

theorem lib_clean (t : Nat) : Clean noIDs (lib t) where
  fits o f hf := by
    by_cases ho : o = 0
    · simp only [lib, ho, if_true, library, List.mem_cons, List.not_mem_nil, or_false] at hf
      rcases hf with rfl | rfl <;> simp [lib, Fits, fName, fBooks, fTags]
    · simp only [lib, ho, if_false, book, List.mem_cons, List.not_mem_nil, or_false] at hf
      rcases hf with rfl | rfl | rfl | rfl <;> simp [lib, Fits, fName, fBooks, fTags, fNext, fOwner]
  names o := by
    by_cases ho : o = 0 <;> simp [lib, ho, library, book, fName, fBooks, fTags, fNext, fOwner]
  reserved o f hf := by
    by_cases ho : o = 0
    · simp only [lib, ho, if_true, library, List.mem_cons, List.not_mem_nil, or_false] at hf
      rcases hf with rfl | rfl <;> simp [fName, fBooks, noIDs]
    · simp only [lib, ho, if_false, book, List.mem_cons, List.not_mem_nil, or_false] at hf
      rcases hf with rfl | rfl | rfl | rfl <;> simp [fName, fTags, fNext, fOwner, noIDs]
  idName := by decide
  noNil o f hf hs := by
    by_cases ho : o = 0
    · subst ho
      simp only [lib, if_true, library, List.mem_cons, List.not_mem_nil, or_false] at hf
      rcases hf with rfl | rfl <;> simp [lib, fName, fBooks, fTags]
    · simp only [lib, ho, if_false, book, List.mem_cons, List.not_mem_nil, or_false] at hf
      have h12 : o = 1 ∨ o = 2 := by
        simp only [lib, Bool.and_eq_true, decide_eq_true_eq] at hs
        omega
      rcases h12 with rfl | rfl <;> rcases hf with rfl | rfl | rfl | rfl <;>
        simp [lib, fName, fBooks, fTags, fNext, fOwner] at hs ⊢
  homes o f hf hs hi := by constructor <;> intros <;> simp [lib]

theorem lib_meta (s t : Nat) : SameMeta (lib s) (lib t) where
  classes a b h := by
    by_cases ha : a = 0 <;> by_cases hb : b = 0 <;> simp [lib, ha, hb] at h ⊢ <;>
      exact absurd h (by decide)
  convert f x y := by
    simp only [lib]
    constructor
    · intro h
      have := congrArg (fun s => s.toList.length) h
      simpa using this
    · rintro rfl; rfl

/-- The hypotheses are met, and the documents are written. -/
example (s t : Nat) (depth : Nat) (d : Doc)
    (h1 : encodeResource noIDs (lib s) 2 [0] = some (some d))
    (h2 : encodeResource noIDs (lib t) 2 [0] = some (some d)) :
    Same noIDs (lib s) (lib t) depth 0 0 :=
  C69_tells_partial noIDs (lib s) (lib t) (lib_meta s t) (lib_clean s) (lib_clean t) 2 2 0 0 d h1 h2 depth

/-- What is written of the library. -/
theorem lib_doc : encodeResource noIDs (lib 3) 2 [0] = some (some (.object [
    ("eClass", .text "http://lib#//Library"), ("name", .text ""),
    ("books", .array [
      .object [("eClass", .text "http://lib#//Book"), ("name", .text "xxx"),
        ("next", .object [("eClass", .text "http://lib#//Book"), ("eRef", .text "#//@books.1")])],
      .object [("eClass", .text "http://lib#//Book"), ("name", .text "xx"),
        ("next", .object [("eClass", .text "http://lib#//Book"), ("eRef", .text "#//@books.0")])]])])) := by
  simp [encodeResource, encodeObject, encodeFeatures, encodeFeature, encodeObjects, encodeID, noIDs,
    lib, library, book, featureKind, fName, fBooks, fTags, fNext, fOwner, className, encodeReference,
    getReference]

example : Readable (.object [("eClass", .text "http://lib#//Library"), ("name", .text ""),
    ("books", .array [
      .object [("eClass", .text "http://lib#//Book"), ("name", .text "xxx"),
        ("next", .object [("eClass", .text "http://lib#//Book"), ("eRef", .text "#//@books.1")])],
      .object [("eClass", .text "http://lib#//Book"), ("name", .text "xx"),
        ("next", .object [("eClass", .text "http://lib#//Book"), ("eRef", .text "#//@books.0")])]])]) :=
  C69_readable_partial noIDs (lib 3) (lib_clean 3) 2 [0] _ lib_doc

/-- The books are below the library. -/
example : ∃ (n : Nat) (doc : Doc), encodeResource noIDs (lib 3) n [0] = some (some doc) :=
  C69_written_partial noIDs (lib 3) (lib_clean 3).fits
    (fun o f hf hs => ((lib_clean 3).noNil o f hf hs).2.1) (fun o => if o = 0 then 1 else 0)
    (by
      rintro a c ⟨f, hf, -, hi, -, hv⟩ 
      by_cases ha : a = 0
      · subst ha
        simp only [lib, if_true, library, List.mem_cons, List.not_mem_nil, or_false] at hf
        rcases hf with rfl | rfl
        · simp [Inside, fName] at hi
        · rcases hv with hv | ⟨cs, hv, hc⟩
          · simp [lib, fName, fBooks, fTags] at hv
          · simp [lib, fName, fBooks, fTags] at hv
            subst hv
            simp at hc
            rcases hc with rfl | rfl <;> simp
      · simp only [lib, ha, if_false, book, List.mem_cons, List.not_mem_nil, or_false] at hf
        rcases hf with rfl | rfl | rfl | rfl <;> simp [Inside, fName, fTags, fNext, fOwner] at hi) 0 []

end Examples

/-- **C69** fails for the other roots of a resource: whatever they are, they are not
written (jsonencoder.go:35-39). -/
theorem C69_roots_violated (opt : Options) (w : World) (n o : Nat) (rest other : List Nat) :
    encodeResource opt w n (o :: rest) = encodeResource opt w n (o :: other) := rfl

/-- **C69** fails for nil values in a list of data: a list with a nil is written like
the list without it (jsonencoder.go:122-125), so the positions of the others are lost. -/
theorem C69_nils_violated :
    ∃ (opt : Options) (v w : World) (f : Feature) (doc : Doc), SameMeta v w ∧
      v.value 0 f = .datas [some 1, none, some 2] ∧ w.value 0 f = .datas [some 1, some 2] ∧
      encodeResource opt v 1 [0] = some (some doc) ∧ encodeResource opt w 1 [0] = some (some doc) := by
  refine ⟨noIDs,
    ⟨fun _ => ⟨"p", "C", [fTags]⟩, fun _ _ => true, fun _ _ => .datas [some 1, none, some 2],
      fun _ => none, fun _ => none, (lib 0).convert⟩,
    ⟨fun _ => ⟨"p", "C", [fTags]⟩, fun _ _ => true, fun _ _ => .datas [some 1, some 2],
      fun _ => none, fun _ => none, (lib 0).convert⟩, fTags, _,
    ⟨fun _ _ _ => rfl, (lib_meta 0 0).convert⟩, rfl, rfl,
    by simp [encodeResource, encodeObject, encodeFeatures, encodeFeature, encodeDatas, featureKind, fTags]; rfl,
    by simp [encodeResource, encodeObject, encodeFeatures, encodeFeature, encodeDatas, featureKind, fTags]; rfl⟩

/-- **C69** fails for references to objects in no resource: whichever object of a class
is referred to, the document is the same (jsonencoder.go:183-185). -/
theorem C69_homeless_violated (opt : Options) (w : World) (f : Feature) (a b c d : Nat)
    (sameClass : w.cls c = w.cls d) (noResource : w.reference c = none ∧ w.reference d = none)
    (cls : w.cls a = ⟨"p", "C", [f]⟩ ∧ w.cls b = ⟨"p", "C", [f]⟩) (ids : w.id a = none ∧ w.id b = none)
    (kind : f = fNext) (set_ : w.isSet a f = true ∧ w.isSet b f = true)
    (va : w.value a f = .object (some c)) (vb : w.value b f = .object (some d)) :
    encodeResource opt w 1 [a] = encodeResource opt w 1 [b] := by
  subst kind
  have hk : featureKind fNext = .reference := rfl
  simp [encodeResource, encodeObject, encodeFeatures, encodeFeature, encodeID, cls, ids, set_, va, vb,
    hk, encodeReference, getReference, noResource, sameClass]

/-- **C69** fails for a feature with the name of one of the keys: an attribute "eClass"
is written next to the class, so the object has the key twice and a reader finds one
of the two (jsonencoder.go:62, 114). -/
theorem C69_names_violated :
    ∃ (opt : Options) (w : World) (doc : Doc),
      encodeResource opt w 1 [0] = some (some doc) ∧ ¬ Readable doc := by
  refine ⟨noIDs,
    ⟨fun _ => ⟨"p", "C", [{ fName with name := "eClass" }]⟩, fun _ _ => true,
      fun _ _ => .data (some 1), fun _ => none, fun _ => none, (lib 0).convert⟩,
    .object [("eClass", .text "p#//C"), ("eClass", .text "x")], ?_, ?_⟩
  · simp [encodeResource, encodeObject, encodeFeatures, encodeFeature, featureKind, fName, encodeID,
      noIDs, className, lib]
  · intro h
    cases h with
    | object _ hn _ => revert hn; decide

/-- A reference that knows no proxies. -/
def fKnown : Feature := { fNext with resolve := false }

/-- **C69** fails for a reference that knows no proxies and leads back: an object that
refers to itself through one, without containing itself, is written for ever
(jsoncodec.go:61-66, jsonencoder.go:129-132). -/
theorem C69_cycle_violated (opt : Options) :
    ∃ w : World, ∃ f ∈ (w.cls 0).features, f.containment = false ∧ w.value 0 f = .object (some 0) ∧
      ∀ n : Nat, encodeResource opt w n [0] = none := by
  refine ⟨⟨fun _ => ⟨"p", "C", [fKnown]⟩, fun _ _ => true,
      fun _ _ => .object (some 0), fun _ => none, fun _ => some "#/", (lib 0).convert⟩,
    fKnown, by simp, rfl, rfl, ?_⟩
  intro n
  have : ∀ n : Nat, encodeObject opt ⟨fun _ => ⟨"p", "C", [fKnown]⟩,
      fun _ _ => true, fun _ _ => .object (some 0), fun _ => none, fun _ => some "#/",
      (lib 0).convert⟩ n 0 = none := by
    intro n
    induction n with
    | zero => simp [encodeObject]
    | succ n ih =>
      rw [encodeObject]
      simp [encodeFeatures, encodeFeature, ih, show featureKind fKnown = .object from rfl]
  simp only [encodeResource, this, Option.map_none]

/-- **C69** fails for a single reference that is set to nil: the encoder panics
(jsonencoder.go:131, 143).  `EIsSet` of a dynamic object with a default value, or of a
store that was told nil, is true. -/
theorem C69_nil_violated (opt : Options) (w : World) (o n : Nat) (f : Feature)
    (hf : f ∈ (w.cls o).features) (ref : f.isRef = true) (persistent : Persistent f)
    (single : f.many = false) (isSet : w.isSet o f = true) (nil : w.value o f = .object none)
    (rest : List Nat) : encodeResource opt w n (o :: rest) = none := by
  have hfeat : ∀ n : Nat, encodeFeature opt w n o f = none := by
    intro n
    rw [encodeFeature]
    by_cases hi : Inside f
    · simp [isSet, nil, featureKind_inside persistent hi, single]
    · simp [isSet, nil, featureKind_outside persistent ref hi, single]
  have hall : ∀ (n : Nat) (fs : List Feature), f ∈ fs → encodeFeatures opt w n o fs = none := by
    intro n fs
    induction fs with
    | nil => intro h; simp at h
    | cons g fs ih =>
      intro h
      rw [encodeFeatures]
      rcases List.mem_cons.1 h with rfl | h
      · rw [hfeat]
      · rw [ih h]
        cases encodeFeature opt w n o g <;> rfl
  cases n with
  | zero => simp [encodeResource, encodeObject]
  | succ n => simp [encodeResource, encodeObject, hall n _ hf]

end Verif.JSON
