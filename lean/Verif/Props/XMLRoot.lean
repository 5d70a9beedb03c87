import Verif.Proofs.XMLRoot

/-!
# C87: objects saved as XML documents with extended names are loaded as they were

Missing in the partial theorems, and in the code: objects whose root element is named after a feature with the type of a super class
(`C87_subtype_violated`, `C87_abstract_violated`), objects of a package with a document root that has no feature for them
(`C87_class_violated`), root features without namespace (`C87_unqualified_violated`), extended names that are names of other features
(`C87_exchanged_violated`), features distinguished by their namespaces (`C87_namespaces_violated`), attributes of document roots
(`C87_attribute_violated`, `C87_panic_violated`), document roots without value (`C87_vacant_violated`) or with several values
(`C87_roots_violated`).
-/

namespace Verif.Props.XMLRoot

open Verif.XMLRoot Verif.Spec.XMLRoot

/-- A document root with one value is saved as a document with one root element, and loaded as it was. -/
theorem C87_root_partial (m : Meta) (hm : Proper m) (r : Nat) (root : Class) (hr : m.classes[r]? = some root) (hroot : root.ext = "")
    (hra : root.abstract = false) (vs : Vals) (hv : Filled m root.features vs) (hs : Single (m.uris.getD root.package "") root.features vs) :
    roots 0 (encode m r vs) = 1 ∧ outside 0 (encode m r vs) = false ∧ decode m false (encode m r vs) = some (one r vs, 0) :=
  have h := Proofs.encode_wellformed hm hr vs (Or.inr ⟨hv, _, hs⟩)
  ⟨h.1, h.2, Proofs.roundtrip_root hm hr hroot hra hv hs⟩

/-- An object whose class is the type of a feature of the document root (the first of them) is saved as a document with one root element.  It
is loaded as it was if document roots are suppressed, and in a new document root otherwise. -/
theorem C87_object_partial (m : Meta) (hm : Proper m) (r c : Nat) (root cls : Class) (hr : m.classes[r]? = some root) (hroot : root.ext = "")
    (hra : root.abstract = false) (hc : m.classes[c]? = some cls) (hca : cls.abstract = false) (hp : cls.package = root.package) (hn : c ≠ r)
    (i : Nat) (f : Feature) (hi : root.inherited ≤ i) (hf : root.features[i]? = some f) (hdata : f.data = false) (htype : f.type = c)
    (hch : f.changeable = true) (hspace : f.space = m.uris.getD root.package "")
    (hfirst : ∀ j g, root.inherited ≤ j → j < i → root.features[j]? = some g → g.data = false → g.type = c → g.changeable = false)
    (vs : Vals) (hv : Filled m cls.features vs) :
    roots 0 (encode m c vs) = 1 ∧ outside 0 (encode m c vs) = false ∧
      decode m true (encode m c vs) = some (one c vs, 0) ∧
      decode m false (encode m c vs) = some (one r (holds root.features i c vs), 0) := by
  have hne : cls.ext ≠ "" := fun h => hn (hm.classes c r cls root hc hr hp (h.trans hroot.symm))
  have h := Proofs.encode_wellformed hm hc vs (Or.inl hne)
  have h' := Proofs.roundtrip_object hm hr hroot hra hc hca hp hn hv hi hf hdata htype hch hspace hfirst
  exact ⟨h.1, h.2, h'.1, h'.2⟩

/-- Without document roots, an object is saved as a document with one root element, and loaded as it was. -/
theorem C87_plain_partial (m : Meta) (hm : Proper m) (hno : ∀ c ∈ m.classes, c.ext ≠ "") (c : Nat) (cls : Class) (hc : m.classes[c]? = some cls)
    (hca : cls.abstract = false) (vs : Vals) (hv : Filled m cls.features vs) (suppress : Bool) :
    roots 0 (encode m c vs) = 1 ∧ outside 0 (encode m c vs) = false ∧ decode m suppress (encode m c vs) = some (one c vs, 0) :=
  have h := Proofs.encode_wellformed hm hc vs (Or.inl (hno cls (List.mem_of_getElem? hc)))
  ⟨h.1, h.2, Proofs.roundtrip_plain hm hno hc hca hv suppress⟩

/-! ## A case -/

/-- an attribute -/
def attr (name ext : String) (many : Bool := false) : Feature := ⟨name, ext, "", true, many, true, 0⟩
/-- a containment reference -/
def ref (name ext : String) (type : Nat) (many : Bool := false) : Feature := ⟨name, ext, "u", false, many, true, type⟩

/-- A library: a document root, books with titles, keywords and pages, covers are pages. -/
def library : Meta where
  classes := [
    ⟨0, "", false, [], 0, [attr "comment" ":comment" true, ref "book" "the-book" 1, ref "page" "the-page" 2]⟩,
    ⟨0, "book", false, [], 0, [attr "Title" "title", attr "Keys" "key" true, ref "Pages" "page" 2 true]⟩,
    ⟨0, "page", false, [], 0, [attr "Text" "text"]⟩,
    ⟨0, "cover", false, [2], 1, [attr "Text" "text", attr "Colour" "colour"]⟩]
  uris := ["u"]
  any := 9

def page (t : String) (rest : Objs) : Objs := .cons 2 (.texts [t] .nil) rest
def cover (t : String) (rest : Objs) : Objs := .cons 3 (.texts [] (.texts [t] .nil)) rest

/-- A book with a title, two keywords, a cover, two pages. -/
def book : Vals := .texts ["T"] (.texts ["k", "l"] (.kids (cover "red" (page "1" (page "2" .nil))) .nil))

theorem library_proper : Proper library where
  uris := by decide
  packages := by decide
  classes := by
    intro i j c d hi hj
    have hi' := (List.getElem?_eq_some_iff.mp hi).1
    have hj' := (List.getElem?_eq_some_iff.mp hj).1
    simp only [library, List.length_cons, List.length_nil] at hi' hj'
    match i, j, hi', hj' with
    | 0, 0, _, _ => simp
    | 1, 1, _, _ => simp
    | 2, 2, _, _ => simp
    | 3, 3, _, _ => simp
    | 0, 1, _, _ | 0, 2, _, _ | 0, 3, _, _ | 1, 0, _, _ | 1, 2, _, _ | 1, 3, _, _ | 2, 0, _, _ | 2, 1, _, _ | 2, 3, _, _ | 3, 0, _, _ | 3, 1, _, _
    | 3, 2, _, _ => simp [library] at hi hj; subst hi hj; simp
  features := by
    intro c hc i j f g hi hj
    have hi' := (List.getElem?_eq_some_iff.mp hi).1
    have hj' := (List.getElem?_eq_some_iff.mp hj).1
    simp only [library, List.mem_cons, List.not_mem_nil, or_false] at hc
    rcases hc with rfl | rfl | rfl | rfl <;> simp only [List.length_cons, List.length_nil] at hi' hj'
    · match i, j, hi', hj' with
      | 0, 0, _, _ | 1, 1, _, _ | 2, 2, _, _ => simp
      | 0, 1, _, _ | 0, 2, _, _ | 1, 0, _, _ | 1, 2, _, _ | 2, 0, _, _ | 2, 1, _, _ => simp at hi hj; subst hi hj; simp [attr, ref]
    · match i, j, hi', hj' with
      | 0, 0, _, _ | 1, 1, _, _ | 2, 2, _, _ => simp
      | 0, 1, _, _ | 0, 2, _, _ | 1, 0, _, _ | 1, 2, _, _ | 2, 0, _, _ | 2, 1, _, _ => simp at hi hj; subst hi hj; simp [attr, ref]
    · omega
    · match i, j, hi', hj' with
      | 0, 0, _, _ | 1, 1, _, _ => simp
      | 0, 1, _, _ | 1, 0, _, _ => simp at hi hj; subst hi hj; simp [attr]
  reserved := by decide

theorem book_filled : Filled library [attr "Title" "title", attr "Keys" "key" true, ref "Pages" "page" 2 true] book := by
  simp [book, cover, page, Filled, Fit, library, attr, ref]

/-- The book is saved, and loaded as it was. -/
example : decode library true (encode library 1 book) = some (one 1 book, 0) ∧
    decode library false (encode library 1 book) = some (one 0 (.texts [] (.kids (one 1 book) (.kids .nil .nil))), 0) :=
  (C87_object_partial library library_proper 0 1 _ _ rfl rfl rfl rfl rfl rfl (by decide) 1 _ (by decide) rfl rfl rfl rfl rfl
    (by intro j g _ hj; have : j = 0 := by omega
        subst this; simp [library]; rintro rfl; simp [attr]) book book_filled).2.2

/-- A document root with the book. -/
example : decode library false (encode library 0 (.texts [] (.kids (one 1 book) (.kids .nil .nil)))) =
    some (one 0 (.texts [] (.kids (one 1 book) (.kids .nil .nil))), 0) :=
  (C87_root_partial library library_proper 0 _ rfl rfl rfl _ (by
    have := book_filled
    simp [Filled, Fit, library, attr, ref, one] at this ⊢
    exact this) (by simp [Single, library, attr, ref, one, Vacant])).2.2

/-- What the document of the book is. -/
example : encode library 1 book = [
    .start ⟨"u", "the-book"⟩ none [(⟨"", "title"⟩, "T")],
    .start ⟨"", "key"⟩ none [], .chars "k", .stop, .start ⟨"", "key"⟩ none [], .chars "l", .stop,
    .start ⟨"u", "page"⟩ (some ⟨"u", "cover"⟩) [(⟨"", "colour"⟩, "red")], .stop,
    .start ⟨"u", "page"⟩ none [(⟨"", "text"⟩, "1")], .stop, .start ⟨"u", "page"⟩ none [(⟨"", "text"⟩, "2")], .stop, .stop] := by decide

/-! ## What the code does not do -/

/-- The metamodel with other features of the document root. -/
def withRoot (fs : List Feature) : Meta :=
  { library with classes := ⟨0, "", false, [], 0, fs⟩ :: library.classes.tail }

/-- A cover saved in an element named after the feature for pages is loaded as a page, and its colour is an error: no type is written in a
root element. -/
theorem C87_subtype_violated :
    decode library true (encode library 3 (.texts ["a"] (.texts ["red"] .nil))) = some (one 2 (.texts ["a"] .nil), 1) := by decide

/-- If the type of the feature is an abstract class, nothing is loaded but a document root without value, and no error is reported. -/
theorem C87_abstract_violated (suppress : Bool) :
    decode { library with classes := library.classes.set 2 ⟨0, "page", true, [], 0, [attr "Text" "text"]⟩ } suppress
      (encode { library with classes := library.classes.set 2 ⟨0, "page", true, [], 0, [attr "Text" "text"]⟩ } 3
        (.texts ["a"] (.texts ["red"] .nil))) = some (one 0 (.texts [] (.kids .nil (.kids .nil .nil))), 0) := by
  cases suppress <;> decide

/-- An object whose class is not the type of a feature of the document root is saved in an element with the name of its class, which is not
found in the document root. -/
theorem C87_class_violated : decode (withRoot []) true (encode (withRoot []) 2 (.texts ["a"] .nil)) = some (one 0 .nil, 1) := by decide

/-- A feature of the document root without namespace: the element has no namespace, no package is found, nothing is loaded. -/
theorem C87_unqualified_violated : decode (withRoot [{ ref "page" "page" 2 with space := "" }]) true
    (encode (withRoot [{ ref "page" "page" 2 with space := "" }]) 2 (.texts ["a"] .nil)) = some (.nil, 1) := by decide

/-- The metamodel with other features of pages. -/
def withPage (fs : List Feature) : Meta :=
  { library with classes := library.classes.set 2 ⟨0, "page", false, [], 0, fs⟩ }

/-- The extended name of a feature is the name of another, and the reverse: their values are exchanged, without error. -/
theorem C87_exchanged_violated : decode (withPage [attr "a" "b", attr "b" "a"]) true
    (encode (withPage [attr "a" "b", attr "b" "a"]) 2 (.texts ["x"] (.texts ["y"] .nil))) = some (one 2 (.texts ["y"] (.texts ["x"] .nil)), 0) := by
  decide

/-- Two features with the same extended name in different namespaces: the values of both go to the first, without error. -/
theorem C87_namespaces_violated :
    decode (withPage [attr "a" "x" true, { attr "b" "x" true with space := "u" }]) true
      (encode (withPage [attr "a" "x" true, { attr "b" "x" true with space := "u" }]) 2 (.texts ["1"] (.texts ["2"] .nil))) =
    some (one 2 (.texts ["1", "2"] (.texts [] .nil)), 0) := by decide

/-- The value of a single-valued attribute of a document root is written outside of the root element, and lost. -/
theorem C87_attribute_violated :
    let m := withRoot [{ attr "title" "title" with space := "u" }, ref "page" "page" 2]
    let o : Vals := .texts ["T"] (.kids (page "1" .nil) .nil)
    outside 0 (encode m 0 o) = true ∧ decode m false (encode m 0 o) = some (one 0 (.texts [] (.kids (page "1" .nil) .nil)), 0) := by decide

/-- An element that is an attribute of the document root: a document that is loaded, and that panics if document roots are suppressed. -/
theorem C87_panic_violated :
    let m := withRoot [{ attr "title" "title" with space := "u" }]
    let doc : List Token := [.start ⟨"u", "title"⟩ none [], .chars "T", .stop]
    decode m false doc = some (one 0 (.texts ["T"] .nil), 0) ∧ decode m true doc = none := by decide

/-- A document root without value is saved as a text without element, and loaded as nothing, without error. -/
theorem C87_vacant_violated (suppress : Bool) :
    roots 0 (encode library 0 (.texts [] (.kids .nil (.kids .nil .nil)))) = 0 ∧
      decode library suppress (encode library 0 (.texts [] (.kids .nil (.kids .nil .nil)))) = some (.nil, 0) := by
  cases suppress <;> decide

/-- A document root with two values is saved as a text with two root elements. -/
theorem C87_roots_violated : roots 0 (encode library 0 (.texts [] (.kids (one 1 book) (.kids (page "1" .nil) .nil)))) = 2 := by decide

end Verif.Props.XMLRoot
