import Verif.Spec.XMLString

/-! # The XML writer: proofs -/

namespace Verif.XMLString

open Spec

/-- the cached indents are the ones of the specification -/
def GoodI (l : List Text) : Prop := ∃ n, l = (List.range (n + 1)).map indent

theorem indent_succ (n : Nat) : indent n ++ [' ', ' '] = indent (n + 1) := by
  have : 2 * (n + 1) = 2 * n + 1 + 1 := by omega
  simp [indent, this, List.replicate_succ']

theorem grow_good (k : Nat) : ∀ n, grow k ((List.range (n + 1)).map indent) = (List.range (n + k + 1)).map indent := by
  induction k with
  | zero => intro n; rfl
  | succ k ih =>
    intro n
    have : (List.range (n + 1)).map indent ++ [((List.range (n + 1)).map indent).getLastD [] ++ [' ', ' ']]
        = (List.range (n + 1 + 1)).map indent := by
      rw [List.range_succ (n := n + 1)]
      conv => lhs; rw [List.range_succ]
      simp [List.range_succ, indent_succ]
    rw [grow, this, ih]
    congr 2; omega

theorem addIndent_eq (s : St) (hg : GoodI s.indents) (extra : Int) (k : Nat) (hk : s.depth + extra - 1 = k) :
    ∃ l, GoodI l ∧ addIndent s extra = some { s with indents := l, cur := s.cur ++ indent k } := by
  obtain ⟨n, hn⟩ := hg
  refine ⟨grow (k + 1 - s.indents.length) s.indents, ?_, ?_⟩
  · rw [hn, grow_good]; exact ⟨_, rfl⟩
  · unfold addIndent
    rw [if_neg (by omega)]
    simp only [hk, Int.toNat_natCast]
    have : (grow (k + 1 - s.indents.length) s.indents)[k]? = some (indent k) := by
      rw [hn, grow_good, List.getElem?_map, List.getElem?_range (by simp; omega)]; rfl
    rw [this]; rfl

/-- the text that precedes the end of the name of the first started element -/
def firstMark (d : Nat) : Forest → Option Text
  | .nil => none
  | .elem name _ _ _ _ => some (indent d ++ '<' :: name)
  | .group children next =>
    match firstMark d children with
    | some t => some t
    | none => (firstMark d next).map (render d children ++ ·)
  | .nilElem name next => (firstMark d next).map (indent d ++ '<' :: name ++ " xsi:nil=\"true\"/>\n".toList ++ ·)
  | .content name t next =>
    (firstMark d next).map (indent d ++ '<' :: name ++ '>' :: t ++ '<' :: '/' :: name ++ ['>', '\n'] ++ ·)

/-- end of a pending start tag -/
def closing (b : Bool) : Text := if b then ['>', '\n'] else []

/-- what calls leave: text `t` added, mark put after `m` -/
structure Leaves (s s' : St) (t : Text) (m : Option Text) (last : Bool) : Prop where
  good : GoodI s'.indents
  depth : s'.depth = s.depth
  names : s'.elementNames = s.elementNames
  last : s'.lastElementIsStart = last
  txt : text s' = text s ++ t
  before : s'.before = match s.before with | some b => some b | none => m.map (text s ++ ·)

theorem text_add (s : St) (t : Text) : text (add s t) = text s ++ t := by simp [text, add]

theorem text_mark (s : St) : text (mark s) = text s := by
  unfold mark; split <;> simp_all [text]

theorem closePending_eq (s : St) :
    closePending s = { s with cur := s.cur ++ closing s.lastElementIsStart, lastElementIsStart := false } := by
  unfold closePending closing
  cases h : s.lastElementIsStart
  · cases s; simp_all
  · simp [closeStartElement, addLine, add]

theorem run_append (s : St) (a b : List Call) : run s (a ++ b) = (run s a).bind fun s => run s b := by
  induction a generalizing s with
  | nil => rfl
  | cons c a ih =>
    simp only [List.cons_append, run]
    cases step s c <;> simp [ih]

theorem run_attributes (attributes : List (Text × Text)) : ∀ s : St,
    run s (attributes.map (fun a => .addAttribute a.1 a.2)) = some (add s (attributes.flatMap attr)) := by
  induction attributes with
  | nil => intro s; simp [run, add]
  | cons a l ih =>
    intro s
    simp only [List.map_cons, run, step, Option.bind_some, ih]
    simp [addAttribute, add, attr]

theorem leaves_trans {s s1 s2 : St} {t1 t2 : Text} {m1 m2 : Option Text} {l1 l2 : Bool}
    (h1 : Leaves s s1 t1 m1 l1) (h2 : Leaves s1 s2 t2 m2 l2) :
    Leaves s s2 (t1 ++ t2) (match m1 with | some m => some m | none => m2.map (t1 ++ ·)) l2 := by
  refine ⟨h2.good, by rw [h2.depth, h1.depth], by rw [h2.names, h1.names], h2.last, by rw [h2.txt, h1.txt]; simp, ?_⟩
  rw [h2.before, h1.before]
  cases s.before with
  | some b => rfl
  | none =>
    cases m1 with
    | some m => rfl
    | none => cases m2 <;> simp [h1.txt]

/-- `startElement` with a name -/
theorem start_eq (s : St) (hg : GoodI s.indents) (d : Nat) (hd : s.depth = d) (name : Text) (hn : name ≠ []) :
    ∃ s', startElement s name = some s' ∧ GoodI s'.indents ∧ s'.depth = (d + 1 : Nat) ∧
      s'.elementNames = name :: s.elementNames ∧ s'.lastElementIsStart = true ∧
      text s' = text s ++ (closing s.lastElementIsStart ++ (indent d ++ '<' :: name)) ∧
      s'.before = match s.before with
        | some b => some b
        | none => some (text s ++ (closing s.lastElementIsStart ++ (indent d ++ '<' :: name))) := by
  unfold startElement
  rw [closePending_eq]
  simp only [if_pos hn]
  obtain ⟨l, hl, he⟩ := addIndent_eq
    (St.mk s.before (s.cur ++ closing s.lastElementIsStart) s.indents (name :: s.elementNames) (s.depth + 1) false) hg 0 d (by simp; omega)
  simp only at he
  rw [he]
  refine ⟨_, rfl, ?_⟩
  unfold mark
  cases hb : s.before <;> simp [add, text, hl, hd, hb]

theorem start_group (s : St) :
    startElement s [] = some (St.mk s.before (s.cur ++ closing s.lastElementIsStart) s.indents ([] :: s.elementNames) s.depth false) := by
  unfold startElement
  rw [closePending_eq]
  simp

/-- end of an element whose start tag is pending -/
theorem end_pending (s : St) (e : Call) (he : e = .endElement ∨ e = .endEmptyElement) (name : Text) (names : List Text)
    (hn : name ≠ []) (hs : s.elementNames = name :: names) (hl : s.lastElementIsStart = true) :
    step s e = some { s with elementNames := names, depth := s.depth - 1, cur := s.cur ++ ['/', '>', '\n'], lastElementIsStart := false } := by
  have : endEmptyElement s = some { s with elementNames := names, depth := s.depth - 1, cur := s.cur ++ ['/', '>', '\n'], lastElementIsStart := false } := by
    simp [endEmptyElement, removeLast, hs, hn, addLine, add]
  rcases he with rfl | rfl
  · simp only [step, endElement, hl, if_true, this]
  · exact this

/-- end of an element with children -/
theorem end_children (s : St) (hg : GoodI s.indents) (d : Nat) (hd : s.depth = (d + 1 : Nat)) (name : Text) (names : List Text)
    (hn : name ≠ []) (hs : s.elementNames = name :: names) (hl : s.lastElementIsStart = false) :
    ∃ l, GoodI l ∧ step s .endElement = some (St.mk s.before (s.cur ++ (indent d ++ '<' :: '/' :: name ++ ['>', '\n'])) l names d s.lastElementIsStart) := by
  obtain ⟨l, hl', he⟩ := addIndent_eq { s with elementNames := names, depth := s.depth - 1 } hg 1 d (by simp; omega)
  refine ⟨l, hl', ?_⟩
  simp only [step, endElement, hl, Bool.false_eq_true, if_false, removeLast, hs, if_pos hn, Option.bind_eq_bind, Option.bind_some]
  simp only [hl] at he
  rw [he]
  simp [addLine, add]
  omega

theorem addNil_eq (s : St) (hg : GoodI s.indents) (d : Nat) (hd : s.depth = d) (name : Text) :
    ∃ s', addNil s name = some s' ∧
      Leaves s s' (closing s.lastElementIsStart ++ (indent d ++ '<' :: name ++ " xsi:nil=\"true\"/>\n".toList)) none false := by
  unfold addNil
  rw [closePending_eq]
  obtain ⟨l, hl, he⟩ := addIndent_eq
    { s with cur := s.cur ++ closing s.lastElementIsStart, lastElementIsStart := false, depth := s.depth + 1 } hg 0 d (by simp; omega)
  simp only at he
  simp only [he, Option.bind_eq_bind, Option.bind_some]
  refine ⟨_, rfl, ⟨hl, ?_, rfl, rfl, ?_, ?_⟩⟩
  · simp [addLine, add]
  · simp [addLine, add, text]
  · simp [addLine, add]; cases s.before <;> rfl

theorem addContent_eq (s : St) (hg : GoodI s.indents) (d : Nat) (hd : s.depth = d) (name t : Text) :
    ∃ s', addContent s name t = some s' ∧
      Leaves s s' (closing s.lastElementIsStart ++ (indent d ++ '<' :: name ++ '>' :: t ++ '<' :: '/' :: name ++ ['>', '\n'])) none false := by
  unfold addContent
  rw [closePending_eq]
  obtain ⟨l, hl, he⟩ := addIndent_eq
    { s with cur := s.cur ++ closing s.lastElementIsStart, lastElementIsStart := false, depth := s.depth + 1 } hg 0 d (by simp; omega)
  simp only at he
  simp only [he, Option.bind_eq_bind, Option.bind_some]
  refine ⟨_, rfl, ⟨hl, ?_, rfl, rfl, ?_, ?_⟩⟩
  · simp [addLine, add]
  · simp [addLine, add, text]
  · simp [addLine, add]; cases s.before <;> rfl

/-- the calls of a sequence of elements write its text -/
theorem run_calls (f : Forest) : Named f → ∀ (s : St) (d : Nat),
    GoodI s.indents → s.depth = d →
    ∃ s', run s (calls f) = some s' ∧
      Leaves s s' (closing (s.lastElementIsStart && !f.isNil) ++ render d f)
        ((firstMark d f).map (closing s.lastElementIsStart ++ ·)) (s.lastElementIsStart && f.isNil) := by
  induction f with
  | nil =>
    intro _ s d hg hd
    refine ⟨s, rfl, ⟨hg, rfl, rfl, by simp [Forest.isNil], by simp [Forest.isNil, closing, render], ?_⟩⟩
    simp [firstMark]; cases s.before <;> rfl
  | elem name attributes short children next ihc ihn =>
    intro ⟨hname, hc, hn⟩ s d hg hd
    obtain ⟨s1, e1, g1, d1, n1, l1, t1, b1⟩ := start_eq s hg d hd name hname
    -- attributes
    let s2 := add s1 (attributes.flatMap attr)
    have e2 := run_attributes attributes s1
    obtain ⟨s3, e3, L3⟩ := ihc hc s2 (d + 1) g1 d1
    have hl2 : s2.lastElementIsStart = true := l1
    have hb2 : s2.before = match s.before with
        | some b => some b
        | none => some (text s ++ (closing s.lastElementIsStart ++ (indent d ++ '<' :: name))) := b1
    have hbs : ∃ b, s2.before = some b := by cases h : s.before <;> simp_all
    have hb3 : s3.before = s2.before := by
      obtain ⟨b, hb⟩ := hbs
      rw [L3.before, hb]
    have ht2 : text s2 = text s ++ (closing s.lastElementIsStart ++ (indent d ++ '<' :: name)) ++ attributes.flatMap attr := by
      show text (add s1 _) = _
      rw [text_add, t1]
    -- the end of the element
    have hend : ∃ s4, step s3 (if short && children.isNil then .endEmptyElement else .endElement) = some s4 ∧ GoodI s4.indents ∧ s4.depth = d ∧
        s4.elementNames = s.elementNames ∧ s4.lastElementIsStart = false ∧ s4.before = s3.before ∧
        text s4 = text s2 ++ (if children.isNil then ['/', '>', '\n']
          else '>' :: '\n' :: render (d + 1) children ++ indent d ++ '<' :: '/' :: name ++ ['>', '\n']) := by
      have hn3 : s3.elementNames = name :: s.elementNames := by rw [L3.names]; exact n1
      have hd3 : s3.depth = (d + 1 : Nat) := by rw [L3.depth]; exact d1
      have ht3 := L3.txt
      have hl3 := L3.last
      rw [hl2] at ht3 hl3
      cases hcn : children.isNil with
      | true =>
        have hcn' : children = .nil := by cases children <;> simp_all [Forest.isNil]
        subst hcn'
        simp only [Forest.isNil, Bool.and_true, Bool.true_and, Bool.not_true, closing, render, Bool.false_eq_true,
          if_false, List.append_nil] at ht3 hl3
        refine ⟨_, end_pending s3 (if short && Forest.nil.isNil then .endEmptyElement else .endElement) (by cases short <;> simp [Forest.isNil]) name _ hname hn3 hl3, L3.good, by simp [hd3], rfl, rfl, rfl, ?_⟩
        simp only [if_true, ← ht3]; simp [text]
      | false =>
        simp only [hcn, Bool.and_false, Bool.true_and, Bool.not_false, closing, if_true] at ht3 hl3
        obtain ⟨l, hl, he'⟩ := end_children s3 L3.good d hd3 name _ hname hn3 hl3
        rw [Bool.and_false]
        refine ⟨_, he', hl, rfl, rfl, hl3, rfl, ?_⟩
        have : text (St.mk s3.before (s3.cur ++ (indent d ++ '<' :: '/' :: name ++ ['>', '\n'])) l s.elementNames (d : Int) s3.lastElementIsStart)
            = text s3 ++ (indent d ++ '<' :: '/' :: name ++ ['>', '\n']) := by simp [text]
        rw [this, ht3]; simp
    obtain ⟨s4, e4, g4, d4, n4, l4, b4, t4⟩ := hend
    obtain ⟨s5, e5, L5⟩ := ihn hn s4 d g4 d4
    refine ⟨s5, ?_, ⟨L5.good, by rw [L5.depth, d4, hd], by rw [L5.names, n4], ?_, ?_, ?_⟩⟩
    · have e3' : run (add s1 (attributes.flatMap attr)) (calls children) = some s3 := e3
      have e1' : step s (.startElement name) = some s1 := e1
      simp only [calls, run_append, run, e1', e2, e3', List.cons_append, Option.bind_some, e4]
      exact e5
    · rw [L5.last, l4]; simp [Forest.isNil]
    · rw [L5.txt, t4, ht2, l4]
      simp [Forest.isNil, closing, render]
    · rw [L5.before, b4, hb3, hb2]
      cases s.before <;> simp [firstMark]
  | group children next ihc ihn =>
    intro ⟨hc, hn⟩ s d hg hd
    let s1 : St := St.mk s.before (s.cur ++ closing s.lastElementIsStart) s.indents ([] :: s.elementNames) s.depth false
    have e1 : startElement s [] = some s1 := start_group s
    obtain ⟨s3, e3, L3⟩ := ihc hc s1 d hg hd
    have hl3 : s3.lastElementIsStart = false := by rw [L3.last]; rfl
    have hn3 : s3.elementNames = [] :: s.elementNames := L3.names
    let s4 : St := { s3 with elementNames := s.elementNames }
    have e4 : step s3 .endElement = some s4 := by
      simp [step, endElement, hl3, removeLast, hn3, s4]
    obtain ⟨s5, e5, L5⟩ := ihn hn s4 d L3.good (by show s3.depth = _; rw [L3.depth]; exact hd)
    have ht1 : text s1 = text s ++ closing s.lastElementIsStart := by simp [text, s1]
    have hl4 : s4.lastElementIsStart = false := hl3
    have ht4 : text s4 = text s1 ++ render d children := by
      show text s3 = _
      rw [L3.txt]; simp [s1, closing]
    refine ⟨s5, ?_, ⟨L5.good, by rw [L5.depth]; show s3.depth = _; rw [L3.depth], by rw [L5.names], ?_, ?_, ?_⟩⟩
    · have e1' : step s (.startElement []) = some s1 := e1
      simp only [calls, List.cons_append, run, e1', run_append, e3, Option.bind_some, e4]
      exact e5
    · rw [L5.last, hl4]; simp [Forest.isNil]
    · rw [L5.txt, ht4, ht1, hl4]; simp [Forest.isNil, closing, render]
    · have hb4 : s4.before = match s.before with | some b => some b | none => (firstMark d children).map (text s1 ++ ·) := by
        show s3.before = _
        rw [L3.before]
        show (match s.before with | some b => some b | none => _) = _
        cases s.before <;> simp [s1, closing]
      rw [L5.before, hb4, ht4, ht1, hl4]
      cases s.before with
      | some b => rfl
      | none =>
        simp only [firstMark]
        cases firstMark d children <;> cases firstMark d next <;> simp [closing]
  | nilElem name next ihn =>
    intro hn s d hg hd
    obtain ⟨s1, e1, L1⟩ := addNil_eq s hg d hd name
    obtain ⟨s2, e2, L2⟩ := ihn hn s1 d L1.good (by rw [L1.depth, hd])
    have L := leaves_trans L1 L2
    refine ⟨s2, by simp only [calls, run, step, e1, Option.bind_some, e2], ⟨L.good, L.depth, L.names, ?_, ?_, ?_⟩⟩
    · rw [L.last, L1.last]; simp [Forest.isNil]
    · rw [L.txt, L1.last]; simp [Forest.isNil, closing, render]
    · rw [L.before, L1.last]; cases s.before <;> simp [firstMark, closing] <;> cases firstMark d next <;> simp
  | content name t next ihn =>
    intro hn s d hg hd
    obtain ⟨s1, e1, L1⟩ := addContent_eq s hg d hd name t
    obtain ⟨s2, e2, L2⟩ := ihn hn s1 d L1.good (by rw [L1.depth, hd])
    have L := leaves_trans L1 L2
    refine ⟨s2, by simp only [calls, run, step, e1, Option.bind_some, e2], ⟨L.good, L.depth, L.names, ?_, ?_, ?_⟩⟩
    · rw [L.last, L1.last]; simp [Forest.isNil]
    · rw [L.txt, L1.last]; simp [Forest.isNil, closing, render]
    · rw [L.before, L1.last]; cases s.before <;> simp [firstMark, closing] <;> cases firstMark d next <;> simp

/-- the namespaces go to the mark -/
theorem render_namespaces (ns : List (Text × Text)) (d : Nat) (f : Forest) :
    (firstMark d f = none ∧ withNamespaces ns f = (f, false)) ∨
    ∃ m r, firstMark d f = some m ∧ render d f = m ++ r ∧
      render d (withNamespaces ns f).1 = m ++ ns.flatMap attr ++ r ∧ (withNamespaces ns f).2 = true := by
  induction f with
  | nil => exact .inl ⟨rfl, rfl⟩
  | elem name attributes short children next ihc ihn =>
    right
    refine ⟨_, attributes.flatMap attr ++
      (if children.isNil then ['/', '>', '\n']
       else '>' :: '\n' :: render (d + 1) children ++ indent d ++ '<' :: '/' :: name ++ ['>', '\n']) ++
      render d next, rfl, ?_, ?_, rfl⟩
    · simp only [render, List.append_assoc]
    · simp only [render, withNamespaces, List.flatMap_append, List.append_assoc]
  | group children next ihc ihn =>
    rcases ihc with ⟨h1, h2⟩ | ⟨m, r, h1, h2, h3, h4⟩
    · rcases ihn with ⟨h5, h6⟩ | ⟨m, r, h5, h6, h7, h8⟩
      · left; simp [firstMark, withNamespaces, h1, h2, h5, h6]
      · right
        refine ⟨render d children ++ m, r, by simp [firstMark, h1, h5], by simp [render, h6], ?_, ?_⟩
        · simp [withNamespaces, h2, render, h7]
        · simp [withNamespaces, h2, h8]
    · right
      have e : withNamespaces ns children = ((withNamespaces ns children).1, true) := by rw [← h4]
      refine ⟨m, r ++ render d next, by simp [firstMark, h1], by simp [render, h2], ?_, ?_⟩
      · simp only [withNamespaces]; rw [e]; simp [render, h3]
      · simp only [withNamespaces]; rw [e]
  | nilElem name next ihn =>
    rcases ihn with ⟨h5, h6⟩ | ⟨m, r, h5, h6, h7, h8⟩
    · left; simp [firstMark, withNamespaces, h5, h6]
    · right
      refine ⟨indent d ++ '<' :: name ++ " xsi:nil=\"true\"/>\n".toList ++ m, r, by simp only [firstMark, h5, Option.map_some],
        by simp [render, h6], ?_, ?_⟩
      · simp [withNamespaces, render, h7]
      · simp [withNamespaces, h8]
  | content name t next ihn =>
    rcases ihn with ⟨h5, h6⟩ | ⟨m, r, h5, h6, h7, h8⟩
    · left; simp [firstMark, withNamespaces, h5, h6]
    · right
      refine ⟨indent d ++ '<' :: name ++ '>' :: t ++ '<' :: '/' :: name ++ ['>', '\n'] ++ m, r,
        by simp only [firstMark, h5, Option.map_some], by simp [render, h6], ?_, ?_⟩
      · simp [withNamespaces, render, h7]
      · simp [withNamespaces, h8]

theorem foldl_attributes (ns : List (Text × Text)) (s : St) :
    ns.foldl (fun s a => addAttribute s a.1 a.2) s = add s (ns.flatMap attr) := by
  induction ns generalizing s with
  | nil => simp [add]
  | cons a l ih => rw [List.foldl_cons, ih]; simp [addAttribute, add, attr]

theorem document_eq (f : Forest) (hn : Named f)
    (header : Text) (ns : List (Text × Text)) :
    document header (calls f) ns = some (header ++ '\n' ::
      (if (withNamespaces ns f).2 then render 0 (withNamespaces ns f).1 else render 0 f ++ ns.flatMap attr)) := by
  obtain ⟨s, h1, L⟩ := run_calls f hn (addLine (add init header)) 0 ⟨0, rfl⟩ rfl
  unfold document
  rw [h1]
  have hb := L.before
  have ht := L.txt
  have h0 : text (addLine (add init header)) = header ++ ['\n'] := by simp [text, addLine, add, init]
  have hl : (addLine (add init header)).lastElementIsStart = false := rfl
  have hb0 : (addLine (add init header)).before = none := rfl
  rw [hl, h0] at ht
  rw [hb0, h0, hl] at hb
  simp only [closing, Bool.false_and, Bool.false_eq_true, if_false, List.nil_append] at hb ht
  simp only [Option.map_some]
  congr 1
  rcases render_namespaces ns 0 f with ⟨h2, h3⟩ | ⟨m, r, h2, h3, h4, h5⟩
  · rw [h2] at hb
    simp only [Option.map_none] at hb
    rw [hb, h3]
    simp only [foldl_attributes, text_add, Bool.false_eq_true, if_false]
    rw [ht]; simp
  · rw [h2] at hb
    simp only [Option.map_some] at hb
    rw [hb, h5]
    simp only [foldl_attributes, if_true, h4, add]
    rw [h3] at ht
    simp only [text, hb, Option.getD_some, List.append_assoc, List.append_cancel_left_eq] at ht
    rw [ht]; simp

end Verif.XMLString
