import Verif.Proofs.XMLString

/-!
# C25: the XML writer produces well nested elements
-/

namespace Verif.XMLString

open Spec

theorem scan_plain (t r : Text) (h : ∀ c ∈ t, c ≠ '<') : scan none (t ++ r) = scan none r := by
  induction t with
  | nil => rfl
  | cons c t ih =>
    have hc := h c (by simp)
    simp only [List.cons_append, scan, if_neg hc]
    exact ih (fun x hx => h x (by simp [hx]))

theorem scan_tag (a t r : Text) (h : ∀ c ∈ t, c ≠ '>') : scan (some a) (t ++ '>' :: r) = (a.reverse ++ t) :: scan none r := by
  induction t generalizing a with
  | nil => simp [scan]
  | cons c t ih =>
    have hc := h c (by simp)
    simp only [List.cons_append, scan, if_neg hc]
    rw [ih (c :: a) (fun x hx => h x (by simp [hx]))]
    simp

/-- spaces, then a tag -/
theorem scan_indent (d : Nat) (t r : Text) (h : ∀ c ∈ t, c ≠ '>') :
    scan none (indent d ++ '<' :: (t ++ '>' :: r)) = t :: scan none r := by
  rw [scan_plain _ _ (by intro c hc; simp [indent] at hc; simp [hc.2])]
  simp only [scan, if_true]
  rw [scan_tag _ _ _ h]; rfl

theorem takeWhile_name (n r : Text) (hn : ∀ c ∈ n, c ≠ ' ') (hr : r = [] ∨ ∃ r', r = ' ' :: r') :
    (n ++ r).takeWhile (· ≠ ' ') = n := by
  rw [List.takeWhile_append_of_pos (by simpa using hn)]
  rcases hr with rfl | ⟨r', rfl⟩ <;> simp

theorem attrs_shape (l : List (Text × Text)) :
    l.flatMap attr = [] ∨ (∃ r, l.flatMap attr = ' ' :: r) ∧ (l.flatMap attr).getLast? = some '"' := by
  rcases List.eq_nil_or_concat l with rfl | ⟨l', a, rfl⟩
  · exact .inl rfl
  · right
    constructor
    · rcases l' with - | ⟨b, l'⟩
      · exact ⟨_, by simp only [List.concat_eq_append, List.nil_append, List.flatMap_cons, List.flatMap_nil, attr, List.cons_append]; rfl⟩
      · exact ⟨_, by simp only [List.concat_eq_append, List.cons_append, List.flatMap_cons, attr]; rfl⟩
    · have : ∀ x y : Text, (x ++ (y ++ ['"'])).getLast? = some '"' := by intro x y; rw [← List.append_assoc]; simp
      simp only [List.concat_eq_append, List.flatMap_append, List.flatMap_cons, List.flatMap_nil, List.append_nil, attr]
      exact this _ _

theorem head_name (n r : Text) (h : LegalName n) : (n ++ r).head? ≠ some '/' := by
  rcases n with - | ⟨c, n⟩
  · exact absurd rfl h.1
  · have := (h.2 c (by simp)).2.2.2
    simpa using this

theorem classify_start (n : Text) (l : List (Text × Text)) (h : LegalName n) : classify (n ++ l.flatMap attr) = .start n := by
  have hlast : (n ++ l.flatMap attr).getLast? ≠ some '/' := by
    rcases attrs_shape l with h0 | ⟨-, h1⟩
    · rw [h0, List.append_nil]
      intro hl
      have := (h.2 '/' (List.mem_of_getLast? hl)).2.2.2
      exact this rfl
    · rw [List.getLast?_append, h1]; simp
  rw [classify, if_neg (head_name n _ h), if_neg hlast, takeWhile_name n _ (fun c hc => (h.2 c hc).2.2.1)]
  rcases attrs_shape l with h0 | ⟨h1, -⟩
  · exact .inl h0
  · exact .inr h1

theorem classify_empty' (n t : Text) (h : LegalName n) (ht : t = [] ∨ ∃ r, t = ' ' :: r) :
    classify (n ++ t ++ ['/']) = .empty n := by
  rw [classify, if_neg (by rw [List.append_assoc]; exact head_name n _ h), if_pos (by simp)]
  rw [List.dropLast_concat, takeWhile_name n _ (fun c hc => (h.2 c hc).2.2.1) ht]

theorem classify_stop (n : Text) : classify ('/' :: n) = .stop n := by simp [classify]

theorem plain_attrs (l : List (Text × Text)) (n : Text) (hl : ∀ a ∈ l, Plain a.1 ∧ Plain a.2)
    (hn : LegalName n) : ∀ c ∈ n ++ l.flatMap attr, c ≠ '>' := by
  intro c hc
  rcases List.mem_append.1 hc with hc | hc
  · exact (hn.2 c hc).2.1
  · obtain ⟨a, ha, hc⟩ := List.mem_flatMap.1 hc
    obtain ⟨h1, h2⟩ := hl a ha
    simp only [attr, List.cons_append, List.append_assoc, List.mem_cons, List.mem_append, List.not_mem_nil, or_false] at hc
    rcases hc with rfl | hc | rfl | rfl | hc | rfl
    · decide
    · exact (h1 c hc).2
    · decide
    · decide
    · exact (h2 c hc).2
    · decide

theorem scan_render (f : Forest) : Legal f → ∀ (d : Nat) (r : Text),
    (scan none (render d f ++ r)).map classify = nesting f ++ (scan none r).map classify := by
  induction f with
  | nil => intro _ d r; rfl
  | elem name attributes short children next ihc ihn =>
    intro ⟨hn, ha, hc, hx⟩ d r
    have hp := plain_attrs attributes name ha hn
    cases hcn : children.isNil with
    | true =>
      have e : render d (.elem name attributes short children next) ++ r =
          indent d ++ '<' :: ((name ++ attributes.flatMap attr ++ ['/']) ++ '>' :: ('\n' :: (render d next ++ r))) := by
        simp [render, hcn]
      rw [e, scan_indent _ _ _ (by
        intro c hc'
        rcases List.mem_append.1 hc' with h | h
        · exact hp c h
        · simp at h; simp [h])]
      have e2 : scan none ('\n' :: (render d next ++ r)) = scan none (render d next ++ r) := by simp [scan]
      rw [List.map_cons, e2, ihn hx, classify_empty' _ _ hn (by
        rcases attrs_shape attributes with h | ⟨h, -⟩
        · exact .inl h
        · exact .inr h)]
      simp [nesting, hcn]
    | false =>
      have e : render d (.elem name attributes short children next) ++ r =
          indent d ++ '<' :: ((name ++ attributes.flatMap attr) ++ '>' :: ('\n' :: (render (d + 1) children ++
            (indent d ++ '<' :: ('/' :: name ++ '>' :: ('\n' :: (render d next ++ r))))))) := by
        simp [render, hcn]
      rw [e, scan_indent _ _ _ hp]
      have e2 : ∀ x, scan none ('\n' :: x) = scan none x := by intro x; simp [scan]
      rw [List.map_cons, e2, ihc hc, scan_indent _ _ _ (by
        intro c hc'
        rcases List.mem_cons.1 hc' with rfl | h
        · decide
        · exact (hn.2 c h).2.1), List.map_cons, e2, ihn hx, classify_start _ _ hn, classify_stop]
      simp [nesting, hcn]
  | group children next ihc ihn =>
    intro ⟨hc, hx⟩ d r
    simp only [render, List.append_assoc, nesting]
    rw [ihc hc, ihn hx]
  | nilElem name next ihn =>
    intro ⟨hn, hx⟩ d r
    have e : render d (.nilElem name next) ++ r =
        indent d ++ '<' :: ((name ++ " xsi:nil=\"true\"".toList ++ ['/']) ++ '>' :: ('\n' :: (render d next ++ r))) := by
      simp [render]
    rw [e, scan_indent _ _ _ (by
      intro c hc'
      simp only [List.append_assoc, List.mem_append] at hc'
      rcases hc' with h | h | h
      · exact (hn.2 c h).2.1
      · have : ∀ c ∈ " xsi:nil=\"true\"".toList, c ≠ '>' := by decide
        exact this c h
      · simp at h; simp [h])]
    have e2 : scan none ('\n' :: (render d next ++ r)) = scan none (render d next ++ r) := by simp [scan]
    rw [List.map_cons, e2, ihn hx, classify_empty' name " xsi:nil=\"true\"".toList hn (.inr ⟨"xsi:nil=\"true\"".toList, by decide⟩)]
    simp [nesting]
  | content name t next ihn =>
    intro ⟨hn, ht, hx⟩ d r
    have e : render d (.content name t next) ++ r =
        indent d ++ '<' :: (name ++ '>' :: (t ++ (indent 0 ++ '<' :: ('/' :: name ++ '>' :: ('\n' :: (render d next ++ r)))))) := by
      simp [render, indent]
    rw [e, scan_indent _ _ _ (fun c hc => (hn.2 c hc).2.1), scan_plain _ _ (fun c hc => (ht c hc).1), scan_indent _ _ _ (by
      intro c hc'
      rcases List.mem_cons.1 hc' with rfl | h
      · decide
      · exact (hn.2 c h).2.1)]
    have e2 : scan none ('\n' :: (render d next ++ r)) = scan none (render d next ++ r) := by simp [scan]
    have e3 := classify_start name [] hn
    simp only [List.flatMap_nil, List.append_nil] at e3
    rw [List.map_cons, List.map_cons, e2, ihn hx, e3, classify_stop]
    simp [nesting]

theorem wellNested_nesting (f : Forest) : ∀ st r, wellNested st (nesting f ++ r) = wellNested st r := by
  induction f with
  | nil => intro st r; rfl
  | elem name a b c n ihc ihn =>
    intro st r
    cases h : c.isNil
    · simp only [nesting, h, Bool.false_eq_true, if_false, List.cons_append, List.append_assoc, List.nil_append]
      rw [wellNested, ihc, wellNested, ihn]; simp
    · simp only [nesting, h, if_true, List.cons_append, List.nil_append]
      rw [wellNested, ihn]
  | group c n ihc ihn => intro st r; simp only [nesting, List.append_assoc]; rw [ihc, ihn]
  | nilElem name n ihn => intro st r; simp only [nesting, List.cons_append]; rw [wellNested, ihn]
  | content name t n ihn =>
    intro st r; simp only [nesting, List.cons_append]; rw [wellNested, wellNested, ihn]; simp

theorem legal_namespaces (ns : List (Text × Text)) (hns : ∀ a ∈ ns, Plain a.1 ∧ Plain a.2) (f : Forest) (h : Legal f) :
    Legal (withNamespaces ns f).1 ∧ nesting (withNamespaces ns f).1 = nesting f := by
  induction f with
  | nil => exact ⟨h, rfl⟩
  | elem name a b c n ihc ihn =>
    obtain ⟨h1, h2, h3, h4⟩ := h
    refine ⟨⟨h1, ?_, h3, h4⟩, rfl⟩
    intro x hx
    rcases List.mem_append.1 hx with hx | hx
    · exact hns x hx
    · exact h2 x hx
  | group c n ihc ihn =>
    simp only [withNamespaces]
    obtain ⟨h1, h2⟩ := ihc h.1
    obtain ⟨h3, h4⟩ := ihn h.2
    split
    · rename_i c' e
      rw [e] at h1 h2
      exact ⟨⟨h1, h.2⟩, by simp only [nesting]; rw [h2]⟩
    · exact ⟨⟨h.1, h3⟩, by simp only [nesting]; rw [h4]⟩
  | nilElem name n ihn =>
    obtain ⟨h3, h4⟩ := ihn h.2
    exact ⟨⟨h.1, h3⟩, by simp only [withNamespaces, nesting]; rw [h4]⟩
  | content name t n ihn =>
    obtain ⟨h3, h4⟩ := ihn h.2.2
    exact ⟨⟨h.1, h.2.1, h3⟩, by simp only [withNamespaces, nesting]; rw [h4]⟩

theorem legal_named (f : Forest) (h : Legal f) : Named f := by
  induction f with
  | nil => trivial
  | elem name a b c n ihc ihn => exact ⟨h.1.1, ihc h.2.2.1, ihn h.2.2.2⟩
  | group c n ihc ihn => exact ⟨ihc h.1, ihn h.2⟩
  | nilElem name n ihn => exact ihn h.2
  | content name t n ihn => exact ihn h.2.2

/-- **C25** (partial): for every sequence of elements with non empty names, whatever their nesting, the
text written is the header and then the rendering of the elements, the namespace declarations
being the first attributes of the first started element.
Missing: `endEmptyElement` for an element without name (`C25_unnamed_violated`). -/
theorem C25_text_partial (f : Forest) (hn : Named f)
    (header : Text) (ns : List (Text × Text)) :
    document header (calls f) ns = some (header ++ '\n' ::
      (if (withNamespaces ns f).2 then render 0 (withNamespaces ns f).1 else render 0 f ++ ns.flatMap attr)) :=
  document_eq f hn header ns

/-- **C25** (partial): when names are legal and no `<` or `>` stands in attributes and content,
the tags read back from the text are those of the nesting of the calls, and they are well nested.
Missing: content with markup, which is not escaped (`C25_content_violated`). -/
theorem C25_nesting_partial (f : Forest) (hf : Legal f)
    (header : Text) (ns : List (Text × Text)) (hns : ∀ a ∈ ns, Plain a.1 ∧ Plain a.2) :
    ∃ t, document header (calls f) ns = some (header ++ '\n' :: t) ∧
      (tags t).map classify = nesting f ∧ wellNested [] ((tags t).map classify) = true := by
  have hw : wellNested [] (nesting f) = true := by
    have := wellNested_nesting f [] []
    simp only [List.append_nil] at this
    rw [this]; rfl
  refine ⟨_, document_eq f (legal_named f hf) header ns, ?_⟩
  have key : (tags (if (withNamespaces ns f).2 then render 0 (withNamespaces ns f).1 else render 0 f ++ ns.flatMap attr)).map classify
      = nesting f := by
    split
    · obtain ⟨h1, h2⟩ := legal_namespaces ns hns f hf
      have := scan_render _ h1 0 []
      simpa [tags, scan, h2] using this
    · have := scan_render _ hf 0 (ns.flatMap attr)
      have h0 : scan none (ns.flatMap attr) = [] := by
        have := scan_plain (ns.flatMap attr) [] (by
          intro c hc
          obtain ⟨a, ha, hc⟩ := List.mem_flatMap.1 hc
          obtain ⟨h1, h2⟩ := hns a ha
          simp only [attr, List.cons_append, List.append_assoc, List.mem_cons, List.mem_append, List.not_mem_nil, or_false] at hc
          rcases hc with rfl | hc | rfl | rfl | hc | rfl
          · decide
          · exact (h1 c hc).1
          · decide
          · decide
          · exact (h2 c hc).1
          · decide)
        simpa [scan] using this
      rw [tags, this, h0]; simp
  exact ⟨key, by rw [key]; exact hw⟩

/-- **C25**: attribute values of data types are escaped and so never contain markup or quotes. -/
theorem C25_escaped (t : Text) : Plain (escape t) ∧ '"' ∉ escape t := by
  have key : ∀ c ∈ escape t, c ≠ '<' ∧ c ≠ '>' ∧ c ≠ '"' := by
    intro c hc
    obtain ⟨x, -, hx⟩ := List.mem_flatMap.1 hc
    have h1 : ∀ c ∈ "&amp;".toList, c ≠ '<' ∧ c ≠ '>' ∧ c ≠ '"' := by decide
    have h2 : ∀ c ∈ "&#39;".toList, c ≠ '<' ∧ c ≠ '>' ∧ c ≠ '"' := by decide
    have h3 : ∀ c ∈ "&lt;".toList, c ≠ '<' ∧ c ≠ '>' ∧ c ≠ '"' := by decide
    have h4 : ∀ c ∈ "&gt;".toList, c ≠ '<' ∧ c ≠ '>' ∧ c ≠ '"' := by decide
    have h5 : ∀ c ∈ "&#34;".toList, c ≠ '<' ∧ c ≠ '>' ∧ c ≠ '"' := by decide
    have h6 : ∀ c ∈ "&#13;".toList, c ≠ '<' ∧ c ≠ '>' ∧ c ≠ '"' := by decide
    split at hx
    · exact h1 c hx
    · split at hx
      · exact h2 c hx
      · split at hx
        · exact h3 c hx
        · split at hx
          · exact h4 c hx
          · split at hx
            · exact h5 c hx
            · split at hx
              · exact h6 c hx
              · simp at hx; subst hx; exact ⟨by assumption, by assumption, by assumption⟩
  exact ⟨fun c hc => ⟨(key c hc).1, (key c hc).2.1⟩, fun h => (key _ h).2.2 rfl⟩

/-- an element with attributes, children of each kind and a sibling -/
def sample : Forest :=
  .elem ['r'] [(['a'], ['1'])] false (.elem ['x'] [] false (.content ['t'] ['h', 'i'] .nil) (.nilElem ['n'] (.elem ['y'] [] true .nil .nil))) .nil

example : (document ['H'] (calls sample) [("xmlns:p".toList, ['u'])]).map String.ofList =
  some "H\n<r xmlns:p=\"u\" a=\"1\">\n  <x>\n    <t>hi</t>\n  </x>\n  <n xsi:nil=\"true\"/>\n  <y/>\n</r>\n" := by decide

example : Legal sample := by
  simp [sample, Legal, LegalName, Plain]

/-- **C25** is violated: content is not escaped; the tag it contains is never closed. -/
theorem C25_content_violated :
    ∃ t, document [] (calls (.elem ['r'] [] false (.content ['x'] "<b>".toList .nil) .nil)) [] = some t ∧
      wellNested [] ((tags t).map classify) = false :=
  ⟨_, rfl, by decide⟩

/-- **C25** is violated: `saveFeatures` ends an element without name that has no features with
`endEmptyElement`, which writes the end of a tag that was never started. -/
theorem C25_unnamed_violated :
    document [] [.startElement [], .endEmptyElement] [] = some "\n/>\n".toList := by decide

end Verif.XMLString
