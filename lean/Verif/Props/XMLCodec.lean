import Verif.Proofs.XMLCodecRoundtrip

/-!
# C60: a resource saved as XMI is loaded as it was

Vocabulary: `Verif.Spec.XMLCodec`.  A resource is written with `encode` to a text and the text is read with `decode`, through a model of
the parser of the library.  What is read is, object by object, what was written: same classes, containers, data, contents and references in
the same order; references to objects of other documents are read as proxies with their URIs.

Missing in the partial theorem, and in the code: resources with several roots (`C60_roots_violated`); contents with markup or carriage
returns (`C60_markup_violated`, `C60_return_violated`); nil values (`C60_nil_violated`, `C60_nils_violated`, `C60_nil_reference_violated`);
empty lists that are set (`C60_empty_violated`); lists that mix references to objects before and after, unless references are resolved
at the end (`C60_order_violated`); features and prefixes named `href` (`C60_href_violated`, `C60_prefix_violated`); contents of type
`EObject` (`C60_eobject_violated`); an ID manager without ID attribute in the document, or along with an ID attribute in the model
(`C60_manager_violated`, `C60_ids_violated`); IDs and URIs with spaces or markup (`C60_space_violated`, `C60_reference_violated`).
Opposites of references, model elements (EPackage, EClass, …) and the extended meta data are left out of the model.
-/

namespace Verif.XMLCodec

open Spec
open Verif.XMLString (Text)

/-- A resource that is saved is loaded: the same objects with the same values, in the same order. -/
theorem C60_roundtrip_partial {D : Type} (env : Env D) (g : Graph D) (opt : Opt) (root : Nat) (doc : List Nat)
    (h : Savable env g opt root doc) (n : Nat) (hn : doc.length ≤ n) : RoundTrip env g opt root doc n :=
  roundtrip h n hn

/-! ## A resource that meets the hypotheses -/

namespace Sample

/-- relative to `x:/` -/
def strip (u : Text) : Text := if "x:/".toList.isPrefixOf u then u.drop 3 else u

/-- package `p` with the class `A` (0) and its abstract class `B` (2), package `q` with the class `C` (1), a `B` -/
def env : Env Text where
  pkg c := if c = 1 then 1 else 0
  name c := if c = 0 then ['A'] else if c = 1 then ['C'] else ['B']
  isAbstract c := c = 2
  features c := if c = 0 then
      [{ name := "name".toList, type := 9 }, { name := "tags".toList, many := true, type := 9 },
       { name := "children".toList, isReference := true, containment := true, many := true, type := 0 },
       { name := "part".toList, isReference := true, containment := true, type := 2 },
       { name := "friends".toList, isReference := true, many := true, type := 0 },
       { name := "other".toList, isReference := true, type := 0, unsettable := true }]
    else if c = 1 then [{ name := "note".toList, type := 9, unsettable := true }] else []
  eObject := 7
  ns := { nsURI := fun p => if p = 0 then "http://p" else "http://q", nsPrefix := fun p => if p = 0 then "p" else "q" }
  factory t := if t = "http://p".toList then some 0 else if t = "http://q".toList then some 1 else none
  classifier p t := if p = 0 ∧ t = ['A'] then some 0 else if p = 0 ∧ t = ['B'] then some 2 else if p = 1 ∧ t = ['C'] then some 1 else none
  toText _ v := v
  fromText _ t := t
  relativize := strip
  resolve t := some ("x:/".toList ++ t)

/-- 0 contains 1 and 2; 1 contains 3; 5 is in another resource; 6 is a proxy.  With `m`, references come in any order. -/
def slot (m : Bool) : Nat → Nat → Option (Val Text)
  | 0, 0 => some (.data (some "a \"<b>\" & c\n".toList))
  | 0, 2 => some (.objs [some 1, some 2])
  | 1, 1 => some (.datas [some "t1".toList, some [], some "\"t2\" > ".toList])
  | 1, 3 => some (.obj (some 3))
  | 1, 4 => some (.objs (if m then [some 2, some 0] else [some 0, some 2]))
  | 3, 0 => some (.data (some []))
  | 2, 4 => some (.objs [some 5, some 1])
  | 2, 5 => some (.obj (some 6))
  | _, _ => none

/-- With `m`, there is an ID manager. -/
def graph (m : Bool) : Graph Text where
  cls o := if o = 3 then 1 else 0
  slot := slot m
  proxy o := if o = 6 then some "x:/c.xml#//@k".toList else none
  res o := if o = 5 then some 1 else if o = 6 then none else some 0
  direct o := if o = 0 then some 0 else if o = 5 then some 1 else none
  container o := if o = 1 ∨ o = 2 then some (0, 2) else if o = 3 then some (1, 3) else none
  id o := if m then some ('i' :: itoa o) else none
  fragment _ := ['/']
  roots := [0]
  uri r := if r = 0 then "x:/a.xml".toList else "x:/b.xml".toList
  manager := m

/-- With `m`, IDs are written and references are resolved at the end. -/
def opt (m : Bool) : Opt := if m then { idAttribute := "id".toList, deferred := true } else {}

instance (f : Feature) : Decidable (Saved f) := by unfold Saved; infer_instance
instance (t : Text) : Decidable (XMLLex.Literal t) := by unfold XMLLex.Literal; infer_instance
instance (t : Text) : Decidable (Content t) := by unfold Content; infer_instance
instance (t : Text) : Decidable (XMLLex.LegalName t) :=
  match t with
  | [] => isFalse (by simp [XMLLex.LegalName])
  | c :: r => decidable_of_iff ((XMLLex.isLetter c = true ∨ c = '_') ∧ (∀ x ∈ c :: r, XMLLex.isNameChar x = true) ∧ (c :: r).count ':' ≤ 1)
      (by simp [XMLLex.LegalName])
instance (t : Text) : Decidable (Identifier t) := by unfold Identifier; infer_instance
instance (f : Feature) (v : Val Text) : Decidable (Fits f v) := by cases v <;> (unfold Fits; infer_instance)

theorem named (m : Bool) (c : Nat) (h : Named env (graph m) [0, 1, 3, 2] c) : c = 0 ∨ c = 1 := by
  have : ∀ o : Nat, (graph m).cls o = 0 ∨ (graph m).cls o = 1 := by intro o; simp only [graph]; split <;> simp
  obtain ⟨o, -, rfl | ⟨p, -, -, x, -, rfl⟩⟩ := h
  · exact this o
  · exact this x

theorem uris (u : Text) (h : "x:/".toList.isPrefixOf u = true) : env.resolve (env.relativize u) = some u := by
  simp only [env, strip, h, if_true, Option.some.injEq]
  obtain ⟨r, rfl⟩ := List.isPrefixOf_iff_prefix.1 h
  rfl

theorem uris' (m : Bool) (x : Nat) (u : Text) (hu : HasURI (graph m) x u) : XMLLex.Literal (env.relativize u) ∧ env.relativize u ≠ [] ∧ env.resolve (env.relativize u) = some u := by
  have hp' : ∀ y : Nat, ∀ v ∈ ((graph m).proxy y).toList, XMLLex.Literal v ∧ "x:/".toList.isPrefixOf v = true ∧ 3 < v.length := by
    intro y
    simp only [graph]
    split <;> decide +kernel
  have hb : XMLLex.Literal u ∧ "x:/".toList.isPrefixOf u = true ∧ 3 < u.length := by
    rcases hu with hu | ⟨-, r, t, -, -, ht, rfl⟩
    · exact hp' x u (by simp [hu])
    · have hr : ∀ r, XMLLex.Literal ((graph m).uri r) ∧ "x:/".toList.isPrefixOf ((graph m).uri r) = true ∧ 3 < ((graph m).uri r).length := by
        intro r; simp only [graph]; split <;> decide +kernel
      obtain ⟨h1, h2, h3⟩ := hr r
      refine ⟨?_, ?_, ?_⟩
      · intro c hc
        rcases List.mem_append.1 hc with hc | hc
        · exact h1 c hc
        · rcases List.mem_cons.1 hc with rfl | hc
          · decide
          · exact ht c hc
      · obtain ⟨w, hw⟩ := List.isPrefixOf_iff_prefix.1 h2
        rw [List.isPrefixOf_iff_prefix, ← hw, List.append_assoc]
        exact List.prefix_append _ _
      · simp; omega
  refine ⟨?_, ?_, uris u hb.2.1⟩
  · simp only [env, strip, hb.2.1, if_true]
    exact fun c hc => hb.1 c (List.mem_of_mem_drop hc)
  · simp only [env, strip, hb.2.1, if_true]
    intro e
    have := congrArg List.length e
    simp at this
    omega

theorem ids : ∀ o ∈ [0, 1, 3, 2], ProperID ('i' :: itoa o) := by
  unfold ProperID
  decide +kernel

theorem savable (m : Bool) : Savable env (graph m) (opt m) 0 [0, 1, 3, 2] where
  roots := rfl
  order := by
    cases m <;> exact .cons 0 [] [1, 3, 2] [] (.cons 1 [2] [3] [2] (.cons 3 [] [] [] .nil .nil) (.cons 2 [] [] [] .nil .nil)) .nil
  nodup := by decide
  top := ⟨rfl, rfl⟩
  proxy := by cases m <;> decide +kernel
  res := by cases m <;> decide +kernel
  direct := by cases m <;> decide +kernel
  container := by cases m <;> decide +kernel
  fits := by
    have : ∀ o ∈ [0, 1, 3, 2], ∀ p ∈ (env.features ((graph m).cls o)).zipIdx, Saved p.1 → ∀ v ∈ ((graph m).slot o p.2).toList,
      Fits p.1 v ∧ (objects (some v)).length < 2 ^ 63 := by cases m <;> decide +kernel
    exact fun o ho p hp hs v hv => this o ho p hp hs v (by simp [hv])
  contained := by cases m <;> decide +kernel
  referenced := by cases m <;> decide +kernel
  nonempty := by cases m <;> decide +kernel
  backward := by cases m <;> decide +kernel
  features := by cases m <;> decide +kernel
  types := by cases m <;> decide +kernel
  known := by
    intro c hc
    rcases named m c hc with rfl | rfl <;> constructor <;> cases m <;> decide +kernel
  prefixes := by
    intro c d hc hd
    rcases named m c hc with rfl | rfl <;> rcases named m d hd with rfl | rfl <;> cases m <;> decide +kernel
  single := by cases m <;> decide +kernel
  uris := fun o _ p _ _ x _ u hu => uris' m x u hu
  fragments := by
    intro o ho p hp hs x hx
    show XMLLex.Literal ['/']
    decide +kernel
  idAttribute := by cases m <;> decide +kernel
  managed := by
    intro h
    obtain rfl : m = true := h
    exact ⟨by decide +kernel, by decide +kernel, fun o ho => ⟨'i' :: itoa o, rfl, ids o ho⟩, by decide +kernel⟩
  unmanaged := by
    have hno : ∀ o ∈ [0, 1, 3, 2], ∀ f ∈ env.features ((graph m).cls o), f.isID = false := by cases m <;> decide +kernel
    have hid : ∀ o ∈ [0, 1, 3, 2], ∀ t, ¬ HasID env (graph m) o t := by
      rintro o ho t ⟨p, hp, -, hi, -⟩
      have := hno o ho p.1 (List.fst_mem_of_mem_zipIdx hp)
      simp [this] at hi
    intro _
    refine ⟨?_, ?_, ?_, ?_⟩
    · intro o ho p hp q hq hi
      have := hno o ho p.1 (List.fst_mem_of_mem_zipIdx hp)
      simp [this] at hi
    · intro o ho f hf hi
      simp [hno o ho f hf] at hi
    · exact fun o ho t ht => absurd ht (hid o ho t)
    · exact fun o ho _ _ t ht => absurd ht (hid o ho t)

/-- the document -/
example : (encode env (graph false) {} 4).map (fun r => (String.ofList r.1, r.2)) = some ("<?xml version=\"1.0\" encoding=\"UTF-8\"?>
<p:A xmi:version=\"2.0\" xmlns:xmi=\"http://www.omg.org/XMI\" xmlns:p=\"http://p\" xmlns:q=\"http://q\" xmlns:xsi=\"http://www.w3.org/2001/XMLSchema-instance\" name=\"a &#34;&lt;b&gt;&#34; &amp; c\n\">
  <children friends=\"#/ #//@children.1\">
    <tags>t1</tags>
    <tags></tags>
    <tags>\"t2\" > </tags>
    <part xsi:type=\"q:C\" note=\"\"/>
  </children>
  <children>
    <friends href=\"b.xml#/\"/>
    <friends href=\"a.xml#//@children.0\"/>
    <other href=\"c.xml#//@k\"/>
  </children>
</p:A>
", 0) := by decide +kernel

example (m : Bool) : RoundTrip env (graph m) (opt m) 0 [0, 1, 3, 2] 4 := C60_roundtrip_partial env (graph m) (opt m) 0 _ (savable m) 4 (Nat.le_refl _)

end Sample

/-! ## What is not loaded as it was -/

/-- saved and loaded -/
def reload {D : Type} (env : Env D) (g : Graph D) (opt : Opt) (n : Nat) : Option (Dec D) := (encode env g opt n).bind fun r => decode env g.manager opt r.1

theorem same_of_reload {D : Type} {env : Env D} {g : Graph D} {opt : Opt} {root : Nat} {doc : List Nat} {n : Nat} (h : RoundTrip env g opt root doc n) :
    ∃ s copy, reload env g opt n = some s ∧ SameDocument env g root doc s copy := by
  obtain ⟨t, s, copy, he, hd, hs⟩ := h
  exact ⟨s, copy, by rw [reload, he]; exact hd, hs⟩

theorem refused {D : Type} {env : Env D} {g : Graph D} {opt : Opt} {root : Nat} {doc : List Nat} {n : Nat} (hr : (reload env g opt n).isNone = true) :
    ¬ RoundTrip env g opt root doc n := by
  intro h
  obtain ⟨s, copy, e, -⟩ := same_of_reload h
  simp [e] at hr

theorem reported {D : Type} {env : Env D} {g : Graph D} {opt : Opt} {root : Nat} {doc : List Nat} {n k : Nat}
    (hr : (reload env g opt n).map (·.errors) = some (k + 1)) : ¬ RoundTrip env g opt root doc n := by
  intro h
  obtain ⟨s, copy, e, hs⟩ := same_of_reload h
  simp [e, hs.errors] at hr

/-- what is read for the root -/
theorem at_root {D : Type} {env : Env D} {g : Graph D} {opt : Opt} {root : Nat} {doc : List Nat} {n : Nat} (h : RoundTrip env g opt root doc n)
    (ho : root ∈ doc) : ∃ (s : Dec D) (c : Copy D) (copy : Nat → Nat), ((reload env g opt n).bind fun s => s.roots.head?.bind (s.objs[·]?)) = some c ∧
      SameDocument env g root doc s copy ∧
      c.cls = g.cls root ∧ c.proxy = none ∧ c.container = (g.container root).map (fun p => (copy p.1, p.2)) ∧
        ∀ p ∈ (env.features (g.cls root)).zipIdx, Saved p.1 → SameValue env g s copy p.1 (g.slot root p.2) (c.slot p.2) := by
  obtain ⟨s, copy, e, hs⟩ := same_of_reload h
  obtain ⟨c, hc, h1, h2, h3, h4⟩ := hs.objects root ho
  refine ⟨s, c, copy, ?_, hs, h1, h2, h3, h4⟩
  simp [e, hs.roots, hc]

/-- a value of the root is not read as it was -/
theorem changed {D : Type} {env : Env D} {g : Graph D} {opt : Opt} {root : Nat} {doc : List Nat} {n i : Nat} {f : Feature} {w : Option (Val D)}
    (ho : root ∈ doc) (hf : (env.features (g.cls root))[i]? = some f) (hs : Saved f)
    (hr : ((reload env g opt n).bind fun s => s.roots.head?.bind (s.objs[·]?)).map (·.slot i) = some w)
    (hw : ∀ (s : Dec D) (copy : Nat → Nat), ¬ SameValue env g s copy f (g.slot root i) w) : ¬ RoundTrip env g opt root doc n := by
  intro h
  obtain ⟨s, c, copy, e, -, -, -, -, hv⟩ := at_root h ho
  rw [e, Option.map_some, Option.some.injEq] at hr
  exact hw s copy (hr ▸ hv (f, i) (List.mem_zipIdx_iff_getElem?.2 hf) hs)

namespace Sample

/-- the features of the class `A` -/
def having (fs : List Feature) : Env Text := { env with features := fun c => if c = 0 then fs else env.features c }

/-- a resource with a root 0 that has this first value -/
def one (v : Val Text) : Graph Text := { graph false with slot := fun o i => if o = 0 ∧ i = 0 then some v else none }

/-- the same with a second value -/
def two (v w : Val Text) : Graph Text :=
  { graph false with slot := fun o i => if o = 0 ∧ i = 0 then some v else if o = 0 ∧ i = 1 then some w else none }

def datum : Feature := { name := ['x'], type := 9 }
def reference : Feature := { name := ['x'], type := 0, isReference := true }
def containment : Feature := { name := ['x'], type := 0, isReference := true, containment := true }

/-- 0 contains 1 and 2; 1 refers to 2 and then to 0 -/
def mixed : Nat → Nat → Option (Val Text)
  | 0, 2 => some (.objs [some 1, some 2])
  | 1, 4 => some (.objs [some 2, some 0])
  | _, _ => none

end Sample

open Sample

/-- Only the first of two roots is saved. -/
theorem C60_roots_violated : (reload (having []) { one (.data none) with roots := [0, 1], direct := fun _ => some 0 } {} 2).map (fun s => (s.errors, s.roots)) =
    some (0, [0]) := by decide +kernel

/-- Contents are not escaped: markup makes the document unreadable. -/
theorem C60_markup_violated : ∀ t ∈ ["a&b".toList, "a<b".toList, "a]]>b".toList],
    ¬ RoundTrip (having [{ datum with many := true }]) (one (.datas [some t])) {} 0 [0] 1 := by
  intro t ht
  apply refused
  revert t
  decide +kernel

/-- … and carriage returns become line feeds. -/
theorem C60_return_violated : ¬ RoundTrip (having [{ datum with many := true }]) (one (.datas [some ['\r']])) {} 0 [0] 1 :=
  changed (i := 0) (w := some (.datas [some ['\n']])) (by simp) rfl (by decide) (by decide +kernel) (by intro s copy; unfold SameValue; simp [datum, one, values, listed])

/-- A nil value of an attribute is read as the value of the empty text. -/
theorem C60_nil_violated : ¬ RoundTrip (having [{ datum with unsettable := true }]) (one (.data none)) {} 0 [0] 1 :=
  changed (i := 0) (w := some (.data (some []))) (by simp) rfl (by decide) (by decide +kernel) (by intro s copy; unfold SameValue; simp [datum, one, values, listed])

/-- The same in a list. -/
theorem C60_nils_violated : (reload (having [{ datum with many := true }]) (one (.datas [some ['a'], none])) {} 1).map (fun s => s.objs.map (·.slot 0)) =
    some [some (.datas [some ['a'], some []])] := by decide +kernel

/-- A nil value of a reference is read as an object. -/
theorem C60_nil_reference_violated : ¬ RoundTrip (having [{ reference with unsettable := true }]) (one (.obj none)) {} 0 [0] 1 :=
  reported (k := 0) (by decide +kernel)

/-- An empty list that is set is read as the list of the root: the root refers to itself, or even contains itself. -/
theorem C60_empty_violated : ∀ f ∈ [reference, containment],
    ¬ RoundTrip (having [{ f with many := true, unsettable := true }]) (one (.objs [])) {} 0 [0] 1 := by
  intro f hf
  simp only [List.mem_cons, List.not_mem_nil, or_false] at hf
  rcases hf with rfl | rfl <;>
  exact changed (i := 0) (w := some (.objs [some 0])) (by simp) rfl (by decide) (by decide +kernel) (by intro s copy; unfold SameValue; simp [reference, containment, one, objects, referred])

/-- A reference list with an object that has been read and one that has not yet been read changes its order. -/
theorem C60_order_violated :
    (reload env { graph false with slot := mixed } {} 3).map (fun s => s.objs.map (·.slot 4)) =
      some ([none, some (.objs [some 0, some 2]), none]) := by decide +kernel

/-- An attribute whose name is `href` makes the object a proxy. -/
theorem C60_href_violated : ¬ RoundTrip (having [{ datum with name := "href".toList }]) (one (.data (some ['a']))) {} 0 [0] 1 :=
  changed (i := 0) (w := none) (by simp) rfl (by decide) (by decide +kernel) (by intro s copy; unfold SameValue; simp [datum, one, values, listed])

/-- … and so does a package whose prefix is `href`. -/
theorem C60_prefix_violated : ¬ RoundTrip { having [datum] with ns := { env.ns with nsPrefix := fun _ => "href" } } (one (.data (some ['a']))) {} 0 [0] 1 := by
  intro h
  obtain ⟨s, c, copy, e, -, -, hp, -⟩ := at_root h (by simp)
  have e' := congrArg (Option.map fun c : Copy Text => c.proxy.isSome) e
  rw [Option.map_some, hp] at e'
  revert e'
  decide +kernel

/-- An object contained by a feature of type `EObject` loses its class. -/
theorem C60_eobject_violated : (reload { having [{ containment with type := 7 }] with name := fun c => if c = 7 then "EObject".toList else ['A'] }
      { one (.obj (some 1)) with container := fun o => if o = 1 then some (0, 0) else none } {} 2).map (fun s => s.objs.map (·.cls)) = some [0, 7] := by
  decide +kernel

/-- References are written with the IDs of the manager, even if these are not written: they are not resolved. -/
theorem C60_manager_violated : ¬ RoundTrip (having [reference]) { one (.obj (some 0)) with manager := true, id := fun _ => some ['i'] } {} 0 [0] 1 :=
  reported (k := 0) (by decide +kernel)

/-- References are written with the ID attribute, and read with the IDs of the manager: they are not resolved. -/
theorem C60_ids_violated : ¬ RoundTrip (having [reference, { datum with name := ['k'], isID := true }])
    { two (.obj (some 0)) (.data (some ['k'])) with manager := true, id := fun _ => some ['i'] } { idAttribute := "id".toList } 0 [0] 1 :=
  reported (k := 0) (by decide +kernel)

/-- References to an object whose ID has a space are not resolved. -/
theorem C60_space_violated : ¬ RoundTrip (having [reference, { datum with name := ['k'], isID := true }])
    (two (.obj (some 0)) (.data (some "a b".toList))) {} 0 [0] 1 :=
  reported (k := 1) (by decide +kernel)

/-- References to an object whose ID has markup, and URIs with markup, make the document unreadable. -/
theorem C60_reference_violated :
    ¬ RoundTrip (having [reference, { datum with name := ['k'], isID := true }]) (two (.obj (some 0)) (.data (some "a&b".toList))) {} 0 [0] 1 ∧
    ¬ RoundTrip (having [reference]) { one (.obj (some 6)) with proxy := fun o => if o = 6 then some "x:/c.xml?a&b#/".toList else none } {} 0 [0] 1 :=
  ⟨refused (by decide +kernel), refused (by decide +kernel)⟩

end Verif.XMLCodec
