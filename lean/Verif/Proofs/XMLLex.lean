import Verif.Spec.XMLLex
import Verif.Proofs.XMLString

/-!
# The text of a document is read back
-/

namespace Verif.XMLLex

open Verif.XMLString (Text escape)
open Verif.XMLString.Spec

/-- names as they stand in the text -/
def rawName (s : Text) : Name := (splitName s).getD ⟨[], s⟩

theorem splitName_some {s : Text} (h : s.count ':' ≤ 1) : splitName s = some (rawName s) := by
  unfold rawName splitName
  rw [if_neg (by omega)]
  dsimp only
  split <;> rfl

theorem readName_eq {s r : Text} (h : LegalName s) (hr : ∀ c t, r = c :: t → isNameChar c = false) :
    readName (s ++ r) = some (rawName s, r) := by
  obtain ⟨⟨c, t, rfl, hc⟩, hall, hcount⟩ := h
  have h1 : (c :: t ++ r).takeWhile isNameChar = c :: t := by
    rw [List.takeWhile_append_of_pos hall]
    cases r with
    | nil => simp
    | cons x r => simp [List.takeWhile_cons, hr x r rfl]
  have h2 : (c :: t ++ r).dropWhile isNameChar = r := by
    rw [List.dropWhile_append_of_pos hall]
    cases r with
    | nil => simp
    | cons x r => simp [List.dropWhile_cons, hr x r rfl]
  unfold readName
  simp only [List.cons_append] at h1 h2 ⊢
  rw [if_pos (by rcases hc with hc | hc <;> simp [hc]), h1, h2, splitName_some hcount]
  rfl

/-! ## Text -/

theorem unescape_literal (t : Text) (h : ∀ c ∈ t, c ≠ '&' ∧ c ≠ '\r') : unescape (.plain false) t = some t := by
  induction t with
  | nil => rfl
  | cons c t ih =>
    obtain ⟨h1, h2⟩ := h c (by simp)
    simp [unescape, h1, h2, ih (fun x hx => h x (by simp [hx]))]

theorem unescape_ne (t : Text) (h : t ≠ []) (m : Bool) (x : Text) (hx : unescape (.plain m) t = some x) : m = false → x ≠ [] := by
  rintro rfl rfl
  have key : ∀ (t acc : Text), unescape (.entity acc) t ≠ some [] := by
    intro t
    induction t with
    | nil => intro acc; simp [unescape]
    | cons c t ih =>
      intro acc
      rw [unescape]
      split
      · intro h
        rw [Option.bind_eq_some_iff] at h
        obtain ⟨y, -, h⟩ := h
        rw [Option.map_eq_some_iff] at h
        obtain ⟨z, -, h⟩ := h
        simp at h
      · exact ih _
  cases t with
  | nil => simp at h
  | cons c t =>
    rw [unescape] at hx
    split at hx
    · exact key _ _ hx
    · split at hx
      · rw [Option.map_eq_some_iff] at hx
        obtain ⟨z, -, h⟩ := hx
        simp at h
      · simp only [Bool.false_eq_true, false_and, if_false, Option.map_eq_some_iff] at hx
        obtain ⟨z, -, h⟩ := hx
        simp at h

theorem readText_literal {t : Text} (h : Literal t) : readText t = some t := by
  unfold readText
  rw [unescape_literal t fun c hc => ⟨(h c hc).1, (h c hc).2.2.2.1⟩]
  simp only [Option.filter_some]
  rw [if_pos]
  rw [List.all_eq_true]
  exact fun c hc => (h c hc).2.2.2.2

theorem unescape_entity (e r : Text) (he : ∀ c ∈ e, c ≠ ';') (acc : Text) (x : Char) (h : entity (acc.reverse ++ e) = some x) :
    unescape (.entity acc) (e ++ ';' :: r) = (unescape (.plain false) r).map (x :: ·) := by
  induction e generalizing acc with
  | nil =>
    rw [List.append_nil] at h
    simp [unescape, h]
  | cons c e ih =>
    rw [List.cons_append, unescape, if_neg (he c (by simp))]
    exact ih (fun y hy => he y (by simp [hy])) _ (by simpa using h)

theorem unescape_amp (e r : Text) (he : ∀ c ∈ e, c ≠ ';') (x : Char) (h : entity e = some x) :
    unescape (.plain false) ('&' :: (e ++ ';' :: r)) = (unescape (.plain false) r).map (x :: ·) := by
  rw [unescape, if_pos rfl]
  exact unescape_entity e r he [] x (by simpa using h)

theorem unescape_escape (t : Text) : unescape (.plain false) (escape t) = some t := by
  induction t with
  | nil => rfl
  | cons c t ih =>
    have hcons : escape (c :: t) = escape [c] ++ escape t := by simp [escape]
    rw [hcons]
    by_cases h1 : c = '&'
    · subst h1
      have := unescape_amp ['a', 'm', 'p'] (escape t) (by decide) '&' (by decide)
      rw [ih] at this; exact this
    by_cases h2 : c = '\''
    · subst h2
      have := unescape_amp ['#', '3', '9'] (escape t) (by decide) '\'' (by decide)
      rw [ih] at this; exact this
    by_cases h3 : c = '<'
    · subst h3
      have := unescape_amp ['l', 't'] (escape t) (by decide) '<' (by decide)
      rw [ih] at this; exact this
    by_cases h4 : c = '>'
    · subst h4
      have := unescape_amp ['g', 't'] (escape t) (by decide) '>' (by decide)
      rw [ih] at this; exact this
    by_cases h5 : c = '"'
    · subst h5
      have := unescape_amp ['#', '3', '4'] (escape t) (by decide) '"' (by decide)
      rw [ih] at this; exact this
    by_cases h6 : c = '\r'
    · subst h6
      have := unescape_amp ['#', '1', '3'] (escape t) (by decide) '\r' (by decide)
      rw [ih] at this; exact this
    have : escape [c] = [c] := by simp [escape, h1, h2, h3, h4, h5, h6]
    rw [this]
    simp [unescape, h1, h6, ih]

/-- what is escaped is read back -/
theorem readText_escape {t : Text} (h : ∀ c ∈ t, inRange c = true) : readText (escape t) = some t := by
  unfold readText
  rw [unescape_escape, Option.filter_some, if_pos]
  rw [List.all_eq_true]; exact h

/-! ## Attributes -/

theorem skipSpace_cons {c : Char} {t : Text} (h : isSpace c = false) : skipSpace (c :: t) = c :: t := by
  simp [skipSpace, List.dropWhile_cons, h]

theorem letter_facts {c : Char} (h : isLetter c = true ∨ c = '_') :
    isSpace c = false ∧ c ≠ '>' ∧ c ≠ '/' ∧ c ≠ '?' ∧ c ≠ '!' ∧ c ≠ '<' := by
  rcases h with h | rfl
  · refine ⟨?_, ?_, ?_, ?_, ?_, ?_⟩
    · by_contra hs
      simp only [isSpace, Bool.not_eq_false, Bool.or_eq_true, decide_eq_true_eq] at hs
      rcases hs with ((rfl | rfl) | rfl) | rfl <;> revert h <;> decide
    all_goals (rintro rfl; revert h; decide)
  · decide

def goodAttribute (a : Text × Text) : Prop := LegalName a.1 ∧ '"' ∉ a.2 ∧ '<' ∉ a.2 ∧ (readText a.2).isSome

theorem readAttributes_eq (l : List (Text × Text)) (h : ∀ a ∈ l, goodAttribute a) (e : Bool) (r : Text) :
    ∀ n, l.length < n → ∃ as, List.Forall₂ (ReadsAttribute rawName) l as ∧
      readAttributes n (l.flatMap attr ++ ((if e then ['/', '>'] else ['>']) ++ r)) = some (as, e, r) := by
  induction l with
  | nil =>
    intro n hn
    obtain ⟨m, rfl⟩ : ∃ m, n = m + 1 := ⟨n - 1, by simp at hn; omega⟩
    refine ⟨[], .nil, ?_⟩
    cases e
    · simp [readAttributes, skipSpace_cons (show isSpace '>' = false by decide)]
    · simp [readAttributes, skipSpace_cons (show isSpace '/' = false by decide)]
  | cons a l ih =>
    intro n hn
    obtain ⟨m, rfl⟩ : ∃ m, n = m + 1 := ⟨n - 1, by simp at hn; omega⟩
    obtain ⟨as, has, hr⟩ := ih (fun x hx => h x (by simp [hx])) m (by simp at hn; omega)
    obtain ⟨h1, h2, h3, h4⟩ := h a (by simp)
    obtain ⟨v, hv⟩ := Option.isSome_iff_exists.1 h4
    refine ⟨(rawName a.1, v) :: as, .cons ⟨rfl, hv⟩ has, ?_⟩
    generalize hR : l.flatMap attr ++ ((if e then ['/', '>'] else ['>']) ++ r) = R at hr ⊢
    have hform : (a :: l).flatMap attr ++ ((if e then ['/', '>'] else ['>']) ++ r)
        = ' ' :: (a.1 ++ ('=' :: '"' :: (a.2 ++ '"' :: R))) := by
      rw [← hR]
      simp [attr]
    rw [hform]
    obtain ⟨c, t, ha1, hc⟩ := h1.1
    obtain ⟨f1, f2, f3, -, -, -⟩ := letter_facts hc
    have hsk : skipSpace (' ' :: (a.1 ++ ('=' :: '"' :: (a.2 ++ '"' :: R)))) = a.1 ++ ('=' :: '"' :: (a.2 ++ '"' :: R)) := by
      rw [ha1]
      have : skipSpace (' ' :: (c :: t ++ ('=' :: '"' :: (a.2 ++ '"' :: R)))) = skipSpace (c :: t ++ ('=' :: '"' :: (a.2 ++ '"' :: R))) := by
        simp [skipSpace, List.dropWhile_cons, isSpace]
      rw [this, List.cons_append, skipSpace_cons f1]
    have hname : readName (a.1 ++ ('=' :: '"' :: (a.2 ++ '"' :: R))) = some (rawName a.1, '=' :: '"' :: (a.2 ++ '"' :: R)) :=
      readName_eq h1 (by rintro c t ⟨⟩; decide)
    have hd : (a.2 ++ '"' :: R).dropWhile (· ≠ '"') = '"' :: R := by
      rw [List.dropWhile_append_of_pos (by intro x hx; simp; rintro rfl; exact h2 hx)]
      simp
    have ht : (a.2 ++ '"' :: R).takeWhile (· ≠ '"') = a.2 := by
      rw [List.takeWhile_append_of_pos (by intro x hx; simp; rintro rfl; exact h2 hx)]
      simp
    have hd' : (a.2 ++ '"' :: R).dropWhile (fun x => !decide (x = '"')) = '"' :: R := by simpa using hd
    have ht' : (a.2 ++ '"' :: R).takeWhile (fun x => !decide (x = '"')) = a.2 := by simpa using ht
    have s1 : skipSpace ('=' :: '"' :: (a.2 ++ '"' :: R)) = '=' :: '"' :: (a.2 ++ '"' :: R) := skipSpace_cons (by decide)
    have s2 : skipSpace ('"' :: (a.2 ++ '"' :: R)) = '"' :: (a.2 ++ '"' :: R) := skipSpace_cons (by decide)
    unfold readAttributes
    rw [hsk]
    rw [ha1] at hname ⊢
    split
    · rename_i heq; simp at heq; exact absurd heq.1 f2
    · rename_i heq; simp at heq; exact absurd heq.1 f3
    · rw [hname]
      simp [s1, s2, hd, ht, h3, hv, hr, hd', ht']

/-! ## Tokens -/

theorem length_attributes (l : List (Text × Text)) : l.length ≤ (l.flatMap attr).length := by
  induction l with
  | nil => simp
  | cons a l ih =>
    rw [List.flatMap_cons, List.length_append, List.length_cons]
    have : 0 < (attr a).length := by simp [attr]
    omega

theorem lex_start (n : Nat) (name : Text) (hn : LegalName name) (l : List (Text × Text)) (h : ∀ a ∈ l, goodAttribute a) (e : Bool)
    (r : Text) : ∃ as, List.Forall₂ (ReadsAttribute rawName) l as ∧
      lex (n + 1) ('<' :: (name ++ (l.flatMap attr ++ ((if e then ['/', '>'] else ['>']) ++ r)))) =
        (lex n r).map ([.start (rawName name) as] ++ (if e then [.stop (rawName name)] else []) ++ ·) := by
  obtain ⟨c, t, ha1, hc⟩ := hn.1
  obtain ⟨-, -, f3, f4, f5, -⟩ := letter_facts hc
  generalize hR : l.flatMap attr ++ ((if e then ['/', '>'] else ['>']) ++ r) = R
  obtain ⟨as, has, hr⟩ := readAttributes_eq l h e r (R.length + 1) (by
    have := length_attributes l
    have := congrArg List.length hR
    simp only [List.length_append] at this
    omega)
  rw [hR] at hr
  refine ⟨as, has, ?_⟩
  have hname : readName (name ++ R) = some (rawName name, R) := readName_eq hn (by
    rw [← hR]
    cases l with
    | nil => cases e <;> simp <;> decide
    | cons a l => simp [attr]; decide)
  rw [ha1] at hname ⊢
  rw [List.cons_append] at hname ⊢
  rw [lex.eq_6 _ _ (by simp [f3]) (by simp [f4]) (by simp [f5]), hname]
  simp [hr]

theorem lex_stop (n : Nat) (name : Text) (hn : LegalName name) (r : Text) :
    lex (n + 1) ('<' :: '/' :: (name ++ '>' :: r)) = (lex n r).map (.stop (rawName name) :: ·) := by
  have hname : readName (name ++ '>' :: r) = some (rawName name, '>' :: r) := readName_eq hn (by rintro c t ⟨⟩; decide)
  rw [lex.eq_3]
  rw [hname]
  simp [skipSpace_cons (show isSpace '>' = false by decide)]

theorem lex_text (n : Nat) (s : Text) (hs : s ≠ []) (h1 : '<' ∉ s) (h2 : hasEnd s = false) (x : Text) (hx : readText s = some x) (r : Text)
    (hr : r = [] ∨ ∃ r', r = '<' :: r') : lex (n + 1) (s ++ r) = (lex n r).map (.text x :: ·) := by
  obtain ⟨c, t, rfl⟩ := List.exists_cons_of_ne_nil hs
  have hc : c ≠ '<' := by rintro rfl; simp at h1
  have ht : ∀ y ∈ t, decide (y ≠ '<') = true := by intro y hy; simp; rintro rfl; simp [hy] at h1
  have e1 : (t ++ r).takeWhile (fun y => decide (y ≠ '<')) = t := by
    rw [List.takeWhile_append_of_pos ht]
    rcases hr with rfl | ⟨r', rfl⟩ <;> simp
  have e2 : (t ++ r).dropWhile (fun y => decide (y ≠ '<')) = r := by
    rw [List.dropWhile_append_of_pos ht]
    rcases hr with rfl | ⟨r', rfl⟩ <;> simp
  rw [List.cons_append, lex.eq_7 _ _ _ (by simp [hc]) (by simp [hc]) (by simp [hc]) (by simp [hc])]
  rw [e1, e2, h2, hx]
  simp

/-! ## Elements -/

def Blank (t : Text) : Prop := ∀ c ∈ t, c = ' ' ∨ c = '\n'

theorem blank_literal {t : Text} (h : Blank t) : readText t = some t ∧ '<' ∉ t ∧ hasEnd t = false := by
  refine ⟨readText_literal fun c hc => ?_, fun hm => ?_, ?_⟩
  · rcases h c hc with rfl | rfl <;> decide
  · rcases h _ hm with h | h <;> revert h <;> decide
  · induction t with
    | nil => rfl
    | cons c t ih =>
      have hc : c ≠ ']' := by rcases h c (by simp) with rfl | rfl <;> decide
      rw [hasEnd.eq_2 _ _ (by simp [hc])]
      exact ih fun x hx => h x (by simp [hx])

/-- white space before a tag -/
theorem lex_blank (w : Text) (hw : Blank w) (r' : Text) (n : Nat) (hn : (w ++ '<' :: r').length < n) :
    ∃ ws m, (∀ x ∈ ws, IsBlank x) ∧ ('<' :: r').length ≤ m ∧ lex n (w ++ '<' :: r') = (lex (m + 1) ('<' :: r')).map (ws ++ ·) := by
  have hr : ∃ x, '<' :: r' = '<' :: x := ⟨_, rfl⟩
  generalize '<' :: r' = r at hr hn
  rw [List.length_append] at hn
  obtain ⟨m, rfl⟩ : ∃ m, n = m + 1 := ⟨n - 1, by omega⟩
  by_cases h : w = []
  · subst h
    refine ⟨[], m, by simp, by simp at hn; omega, ?_⟩
    simp
  · obtain ⟨h1, h2, h3⟩ := blank_literal hw
    have hlen : 0 < w.length := List.length_pos_iff.2 h
    obtain ⟨k, rfl⟩ : ∃ k, m = k + 1 := ⟨m - 1, by omega⟩
    refine ⟨[.text w], k, by simp; exact ⟨w, rfl, hw⟩, by omega, ?_⟩
    rw [lex_text _ w h h2 h3 w h1 r (.inr hr)]
    rfl

theorem blank_append {a b : Text} (ha : Blank a) (hb : Blank b) : Blank (a ++ b) := by
  intro c hc
  rcases List.mem_append.1 hc with h | h
  · exact ha c h
  · exact hb c h

theorem blank_indent (d : Nat) : Blank (indent d) := by
  intro c hc
  exact .inl (List.eq_of_mem_replicate hc)

theorem map_map_append (o : Option (List Token)) (a b : List Token) : (o.map (b ++ ·)).map (a ++ ·) = o.map ((a ++ b) ++ ·) := by
  cases o <;> simp

/-- what is written is read -/
theorem lex_render (f : Forest) : Readable f → ∀ (d : Nat) (w r : Text) (n : Nat), Blank w → (w ++ (render d f ++ r)).length < n →
    ∃ ts w' n', Reads rawName rawName f ts ∧ Blank w' ∧ (w' ++ r).length < n' ∧
      lex n (w ++ (render d f ++ r)) = (lex n' (w' ++ r)).map (ts ++ ·) := by
  induction f with
  | nil =>
    intro _ d w r n hw hn
    exact ⟨[], w, n, rfl, hw, by simpa [render] using hn, by simp [render]⟩
  | elem name attributes short children next ihc ihn =>
    rintro ⟨hname, hatt, hch, hnext⟩ d w r n hw hn
    by_cases hc : children.isNil = true
    · have hcn : children = .nil := by cases children <;> simp [Forest.isNil] at hc ⊢
      subst hcn
      have hform : w ++ (render d (.elem name attributes short .nil next) ++ r) =
          (w ++ indent d) ++ ('<' :: (name ++ (attributes.flatMap attr ++ ((if true then ['/', '>'] else ['>']) ++ (['\n'] ++ (render d next ++ r)))))) := by
        simp [render, Forest.isNil]
      rw [hform] at hn ⊢
      obtain ⟨ws, m, hws, hm, h1⟩ := lex_blank _ (blank_append hw (blank_indent d)) _ n hn
      obtain ⟨as, has, h2⟩ := lex_start m name hname attributes hatt true (['\n'] ++ (render d next ++ r))
      obtain ⟨ts, w', n', h3, h4, h5, h6⟩ := ihn hnext d ['\n'] r m (by intro c hc; simp at hc; exact .inr hc) (by
        simp at hm ⊢; omega)
      refine ⟨ws ++ .start (rawName name) as :: ([] ++ [] ++ .stop (rawName name) :: ts), w', n',
        ⟨ws, [], [], ts, as, rfl, hws, by simp, has, rfl, h3⟩, h4, h5, ?_⟩
      rw [h1, h2, h6, map_map_append, map_map_append]
      simp
    · have hform : w ++ (render d (.elem name attributes short children next) ++ r) =
          (w ++ indent d) ++ ('<' :: (name ++ (attributes.flatMap attr ++ ((if false then ['/', '>'] else ['>']) ++ (['\n'] ++
            (render (d + 1) children ++ (indent d ++ '<' :: '/' :: (name ++ '>' :: (['\n'] ++ (render d next ++ r)))))))))) := by
        simp [render, hc]
      rw [hform] at hn ⊢
      obtain ⟨ws, m, hws, hm, h1⟩ := lex_blank _ (blank_append hw (blank_indent d)) _ n hn
      obtain ⟨as, has, h2⟩ := lex_start m name hname attributes hatt false (['\n'] ++
            (render (d + 1) children ++ (indent d ++ '<' :: '/' :: (name ++ '>' :: (['\n'] ++ (render d next ++ r))))))
      obtain ⟨cs, w1, n1, h3, h4, h5, h6⟩ := ihc hch (d + 1) ['\n'] (indent d ++ '<' :: '/' :: (name ++ '>' :: (['\n'] ++ (render d next ++ r)))) m
        (by intro c hc; simp at hc; exact .inr hc) (by simp at hm ⊢; omega)
      rw [← List.append_assoc w1] at h5 h6
      obtain ⟨ws', m', hws', hm', h7⟩ := lex_blank _ (blank_append h4 (blank_indent d)) _ n1 h5
      have h8 := lex_stop m' name hname (['\n'] ++ (render d next ++ r))
      obtain ⟨ts, w', n', h9, h10, h11, h12⟩ := ihn hnext d ['\n'] r m' (by intro c hc; simp at hc; exact .inr hc) (by
        simp at hm' ⊢; omega)
      refine ⟨ws ++ .start (rawName name) as :: (cs ++ ws' ++ .stop (rawName name) :: ts), w', n',
        ⟨ws, cs, ws', ts, as, rfl, hws, hws', has, h3, h9⟩, h10, h11, ?_⟩
      rw [h1, h2, h6, h7, h8, h12]
      cases lex n' (w' ++ r) <;> simp
  | group children next ihc ihn =>
    rintro ⟨hch, hnext⟩ d w r n hw hn
    simp only [render, List.append_assoc] at hn ⊢
    obtain ⟨cs, w1, n1, h3, h4, h5, h6⟩ := ihc hch d w (render d next ++ r) n hw hn
    obtain ⟨ts, w', n', h9, h10, h11, h12⟩ := ihn hnext d w1 r n1 h4 h5
    refine ⟨cs ++ ts, w', n', ⟨cs, ts, rfl, h3, h9⟩, h10, h11, ?_⟩
    rw [h6, h12, map_map_append]
  | nilElem name next ihn =>
    rintro ⟨hname, hnext⟩ d w r n hw hn
    have hform : w ++ (render d (.nilElem name next) ++ r) =
        (w ++ indent d) ++ ('<' :: (name ++ ([("xsi:nil".toList, "true".toList)].flatMap attr ++ ((if true then ['/', '>'] else ['>']) ++ (['\n'] ++ (render d next ++ r)))))) := by
      simp [render, attr]
    rw [hform] at hn ⊢
    obtain ⟨ws, m, hws, hm, h1⟩ := lex_blank _ (blank_append hw (blank_indent d)) _ n hn
    obtain ⟨as, has, h2⟩ := lex_start m name hname [("xsi:nil".toList, "true".toList)] (by
      intro a ha
      simp only [List.mem_singleton] at ha
      subst ha
      exact ⟨⟨⟨_, _, rfl, by decide⟩, by decide, by decide⟩, by decide, by decide, by decide⟩) true (['\n'] ++ (render d next ++ r))
    obtain ⟨ts, w', n', h3, h4, h5, h6⟩ := ihn hnext d ['\n'] r m (by intro c hc; simp at hc; exact .inr hc) (by
      simp at hm ⊢; omega)
    have has' : as = [(rawName "xsi:nil".toList, "true".toList)] := by
      cases has with
      | cons ha hl =>
        cases hl
        rename_i x
        obtain ⟨x1, x2⟩ := x
        obtain ⟨ha1, ha2⟩ := ha
        have : readText "true".toList = some "true".toList := by decide
        simp only at ha1 ha2
        rw [this] at ha2
        simp only [Option.some.injEq] at ha2
        rw [ha1, ← ha2]
    subst has'
    refine ⟨ws ++ .start (rawName name) [(rawName "xsi:nil".toList, "true".toList)] :: .stop (rawName name) :: ts, w', n',
      ⟨ws, ts, rfl, hws, h3⟩, h4, h5, ?_⟩
    rw [h1, h2, h6, map_map_append, map_map_append]
    simp
  | content name t next ihn =>
    rintro ⟨hname, ht1, ht2, ht3, hnext⟩ d w r n hw hn
    obtain ⟨x, hx⟩ := Option.isSome_iff_exists.1 ht3
    have hform : w ++ (render d (.content name t next) ++ r) =
        (w ++ indent d) ++ ('<' :: (name ++ (([] : List (Text × Text)).flatMap attr ++ ((if false then ['/', '>'] else ['>']) ++
          (t ++ ('<' :: '/' :: (name ++ '>' :: (['\n'] ++ (render d next ++ r))))))))) := by
      simp [render]
    rw [hform] at hn ⊢
    obtain ⟨ws, m, hws, hm, h1⟩ := lex_blank _ (blank_append hw (blank_indent d)) _ n hn
    obtain ⟨as, has, h2⟩ := lex_start m name hname [] (by simp) false (t ++ ('<' :: '/' :: (name ++ '>' :: (['\n'] ++ (render d next ++ r)))))
    cases has
    obtain ⟨k, hk, h3⟩ : ∃ k, (['\n'] ++ (render d next ++ r)).length < k ∧
        lex m (t ++ ('<' :: '/' :: (name ++ '>' :: (['\n'] ++ (render d next ++ r))))) =
          (lex k (['\n'] ++ (render d next ++ r))).map (((if x = [] then [] else [.text x]) ++ [.stop (rawName name)]) ++ ·) := by
      by_cases h : t = []
      · subst h
        have : x = [] := by simpa [readText, unescape, Option.filter_some] using hx.symm
        subst this
        obtain ⟨k, rfl⟩ : ∃ k, m = k + 1 := ⟨m - 1, by simp at hm; omega⟩
        refine ⟨k, by simp at hm ⊢; omega, ?_⟩
        rw [List.nil_append, lex_stop k name hname]
        simp
      · have hlen : 0 < t.length := List.length_pos_iff.2 h
        obtain ⟨k, rfl⟩ : ∃ k, m = k + 1 + 1 := ⟨m - 2, by simp at hm; omega⟩
        refine ⟨k, by simp at hm ⊢; omega, ?_⟩
        rw [lex_text _ t h ht1 ht2 x hx _ (.inr ⟨_, rfl⟩), lex_stop k name hname]
        have hxn : x ≠ [] := by
          rintro rfl
          unfold readText at hx
          have hu : unescape (.plain false) t = some [] := (Option.filter_eq_some_iff.1 hx).1
          exact unescape_ne t h _ _ hu rfl rfl
        rw [if_neg hxn]
        cases lex k (['\n'] ++ (render d next ++ r)) <;> simp
    obtain ⟨ts, w', n', h9, h10, h11, h12⟩ := ihn hnext d ['\n'] r k (by intro c hc; simp at hc; exact .inr hc) hk
    refine ⟨ws ++ .start (rawName name) [] :: ((if x = [] then [] else [.text x]) ++ .stop (rawName name) :: ts), w', n',
      ⟨ws, ts, x, hx, rfl, hws, h9⟩, h10, h11, ?_⟩
    rw [h1, h2, h3, h12, map_map_append, map_map_append, map_map_append]
    simp

/-! ## Namespaces -/

/-- how the names of elements and attributes are read -/
def elementName (ns : List (Text × Text)) (s : Text) : Name := translate ns true (rawName s)

def attributeName (ns : List (Text × Text)) (s : Text) : Name := translate ns false (rawName s)

/-- the name does not declare a namespace -/
def NotDecl (s : Text) : Prop := (rawName s).space ≠ xmlns ∧ ¬ ((rawName s).space = [] ∧ (rawName s).loc = xmlns)

/-- no namespace is declared -/
def NoDecls : Forest → Prop
  | .nil => True
  | .elem _ attributes _ children next => (∀ a ∈ attributes, NotDecl a.1) ∧ NoDecls children ∧ NoDecls next
  | .group children next => NoDecls children ∧ NoDecls next
  | .nilElem _ next => NoDecls next
  | .content _ _ next => NoDecls next

theorem declare_none (ns : List (Text × Text)) (as : List (Name × Text))
    (h : ∀ a ∈ as, a.1.space ≠ xmlns ∧ ¬ (a.1.space = [] ∧ a.1.loc = xmlns)) : declare ns as = ns := by
  induction as with
  | nil => rfl
  | cons a l ih =>
    obtain ⟨h1, h2⟩ := h a (by simp)
    rw [declare, if_neg h1, if_neg h2]
    exact ih fun x hx => h x (by simp [hx])

theorem reads_attributes {l : List (Text × Text)} {as : List (Name × Text)} (h : List.Forall₂ (ReadsAttribute rawName) l as) :
    (∀ a ∈ l, NotDecl a.1) → ∀ a ∈ as, a.1.space ≠ xmlns ∧ ¬ (a.1.space = [] ∧ a.1.loc = xmlns) := by
  induction h with
  | nil => simp
  | cons ha _ ih =>
    intro hn a ham
    rcases List.mem_cons.1 ham with rfl | ham
    · rw [ha.1]
      exact hn _ (by simp)
    · exact ih (fun x hx => hn x (by simp [hx])) a ham

theorem reads_translated {l : List (Text × Text)} {as : List (Name × Text)} (h : List.Forall₂ (ReadsAttribute rawName) l as)
    (ns : List (Text × Text)) : List.Forall₂ (ReadsAttribute (attributeName ns)) l (as.map fun a => (translate ns false a.1, a.2)) := by
  induction h with
  | nil => exact .nil
  | cons ha _ ih =>
    refine .cons ⟨?_, ha.2⟩ ih
    simp only [ha.1]
    rfl

theorem resolve_blank (ws : List Token) (h : ∀ w ∈ ws, IsBlank w) (st : List (Name × List (Text × Text))) (ns : List (Text × Text))
    (r : List Token) : resolve st ns (ws ++ r) = (resolve st ns r).map (ws ++ ·) := by
  induction ws with
  | nil => simp
  | cons w ws ih =>
    obtain ⟨s, rfl, -⟩ := h w (by simp)
    rw [List.cons_append, resolve, ih fun x hx => h x (by simp [hx])]
    cases resolve st ns r <;> simp

theorem resolve_reads (f : Forest) (ns : List (Text × Text)) : NoDecls f → ∀ (ts : List Token), Reads rawName rawName f ts →
    ∃ ts', Reads (elementName ns) (attributeName ns) f ts' ∧ ∀ (st : List (Name × List (Text × Text))) (r : List Token),
      resolve st ns (ts ++ r) = (resolve st ns r).map (ts' ++ ·) := by
  induction f with
  | nil =>
    rintro - ts rfl
    exact ⟨[], rfl, by simp⟩
  | elem name attributes short children next ihc ihn =>
    rintro ⟨h1, h2, h3⟩ ts ⟨ws, cs, ws', rest, as, rfl, hws, hws', has, hc, hn⟩
    obtain ⟨cs', hcs, rc⟩ := ihc h2 cs hc
    obtain ⟨rest', hrest, rr⟩ := ihn h3 rest hn
    refine ⟨ws ++ .start (elementName ns name) (as.map fun a => (translate ns false a.1, a.2)) :: (cs' ++ ws' ++ .stop (elementName ns name) :: rest'),
      ⟨ws, cs', ws', rest', _, rfl, hws, hws', reads_translated has ns, hcs, hrest⟩, ?_⟩
    intro st r
    simp only [List.append_assoc, List.cons_append]
    rw [resolve_blank ws hws, resolve, declare_none ns as (reads_attributes has h1), rc, resolve_blank ws' hws', resolve]
    rw [show translate ns true (rawName name) = elementName ns name from rfl, if_pos rfl, rr]
    cases resolve st ns r <;> simp
  | group children next ihc ihn =>
    rintro ⟨h2, h3⟩ ts ⟨cs, rest, rfl, hc, hn⟩
    obtain ⟨cs', hcs, rc⟩ := ihc h2 cs hc
    obtain ⟨rest', hrest, rr⟩ := ihn h3 rest hn
    refine ⟨cs' ++ rest', ⟨cs', rest', rfl, hcs, hrest⟩, ?_⟩
    intro st r
    rw [List.append_assoc, rc, rr]
    cases resolve st ns r <;> simp
  | nilElem name next ihn =>
    rintro h3 ts ⟨ws, rest, rfl, hws, hn⟩
    obtain ⟨rest', hrest, rr⟩ := ihn h3 rest hn
    refine ⟨ws ++ .start (elementName ns name) [(attributeName ns "xsi:nil".toList, "true".toList)] :: .stop (elementName ns name) :: rest',
      ⟨ws, rest', rfl, hws, hrest⟩, ?_⟩
    intro st r
    simp only [List.append_assoc, List.cons_append]
    rw [resolve_blank ws hws, resolve, declare_none ns _ (by
      intro a ha
      simp only [List.mem_singleton] at ha
      subst ha
      decide), resolve]
    rw [show translate ns true (rawName name) = elementName ns name from rfl, if_pos rfl, rr]
    cases resolve st ns r <;> simp [attributeName]
  | content name t next ihn =>
    rintro h3 ts ⟨ws, rest, x, hx, rfl, hws, hn⟩
    obtain ⟨rest', hrest, rr⟩ := ihn h3 rest hn
    refine ⟨ws ++ .start (elementName ns name) [] :: ((if x = [] then [] else [.text x]) ++ .stop (elementName ns name) :: rest'),
      ⟨ws, rest', x, hx, rfl, hws, hrest⟩, ?_⟩
    intro st r
    simp only [List.append_assoc, List.cons_append]
    rw [resolve_blank ws hws, resolve]
    simp only [declare]
    rw [show translate ns true (rawName name) = elementName ns name from rfl]
    by_cases h : x = []
    · rw [if_pos h, List.nil_append, resolve, show translate ns true (rawName name) = elementName ns name from rfl, if_pos rfl, rr]
      cases resolve st ns r <;> simp
    · rw [if_neg h, List.singleton_append, resolve, resolve, show translate ns true (rawName name) = elementName ns name from rfl, if_pos rfl, rr]
      cases resolve st ns r <;> simp

/-- the namespaces declared by the attributes as they are read -/
def declared (attributes : List (Text × Text)) : List (Text × Text) :=
  declare [] (attributes.map fun a => (rawName a.1, (readText a.2).getD []))

theorem reads_eq {l : List (Text × Text)} {as : List (Name × Text)} (h : List.Forall₂ (ReadsAttribute rawName) l as) :
    as = l.map fun a => (rawName a.1, (readText a.2).getD []) := by
  induction h with
  | nil => rfl
  | cons ha _ ih =>
    rename_i a b _ _ _
    rw [List.map_cons, ← ih, ha.2, ← ha.1]
    rfl

theorem skipInst_eq (h r : Text) (hh : '?' ∉ h) : skipInst (h ++ '?' :: '>' :: r) = some r := by
  induction h with
  | nil => rfl
  | cons c t ih =>
    have : c ≠ '?' := by rintro rfl; simp at hh
    rw [List.cons_append, skipInst.eq_2 _ _ (by simp [this])]
    exact ih (by intro hm; exact hh (by simp [hm]))

/-- a document with one root element is read -/
theorem parse_document (inst : Text) (hi : '?' ∉ inst) (name : Text) (attributes : List (Text × Text)) (short : Bool) (children : Forest)
    (hr : Readable (.elem name attributes short children .nil)) (hd : NoDecls children) :
    ∃ ts bs, parse ('<' :: '?' :: (inst ++ '?' :: '>' :: '\n' :: render 0 (.elem name attributes short children .nil))) =
        some (.inst :: (ts ++ bs)) ∧ (∀ b ∈ bs, IsBlank b) ∧
      Reads (elementName (declared attributes)) (attributeName (declared attributes)) (.elem name attributes short children .nil) ts := by
  unfold parse
  rw [lex.eq_4, skipInst_eq inst _ hi]
  simp only [Option.bind_eq_bind, Option.bind_some]
  obtain ⟨ts, w', n', h1, h2, h3, h4⟩ := lex_render _ hr 0 ['\n'] []
    ('<' :: '?' :: (inst ++ '?' :: '>' :: '\n' :: render 0 (.elem name attributes short children .nil))).length
    (by intro c hc; simp at hc; exact .inr hc) (by simp; omega)
  simp only [List.append_nil, List.singleton_append] at h3 h4
  rw [h4]
  obtain ⟨bs, hbs, hlex⟩ : ∃ bs, (∀ b ∈ bs, IsBlank b) ∧ lex n' w' = some bs := by
    by_cases h : w' = []
    · subst h
      exact ⟨[], by simp, by cases n' <;> rfl⟩
    · obtain ⟨m, rfl⟩ : ∃ m, n' = m + 1 := ⟨n' - 1, by omega⟩
      obtain ⟨b1, b2, b3⟩ := blank_literal h2
      have := lex_text m w' h b2 b3 w' b1 [] (.inl rfl)
      rw [List.append_nil] at this
      refine ⟨[.text w'], by simp; exact ⟨w', rfl, h2⟩, ?_⟩
      rw [this]
      cases m <;> rfl
  rw [hlex]
  obtain ⟨ws, cs, ws', rest, as, rfl, hws, hws', has, hc, hn⟩ := h1
  obtain ⟨cs', hcs, rc⟩ := resolve_reads children (declared attributes) hd cs hc
  refine ⟨ws ++ .start (elementName (declared attributes) name) (as.map fun a => (translate (declared attributes) false a.1, a.2)) ::
    (cs' ++ ws' ++ .stop (elementName (declared attributes) name) :: []), bs, ?_, hbs,
    ⟨ws, cs', ws', [], _, rfl, hws, hws', reads_translated has _, hcs, rfl⟩⟩
  have hrest : rest = [] := hn
  subst hrest
  simp only [Option.map_some, Option.bind_some, List.append_assoc, List.cons_append, resolve]
  rw [resolve_blank ws hws, resolve]
  have hdecl : declare [] as = declared attributes := by rw [reads_eq has]; rfl
  rw [hdecl, rc, resolve_blank ws' hws', resolve, show translate (declared attributes) true (rawName name) = elementName (declared attributes) name from rfl,
    if_pos rfl, List.nil_append]
  have hb : resolve [] [] bs = some bs := by
    have := resolve_blank bs hbs [] [] []
    rw [List.append_nil] at this
    rw [this]
    simp [resolve]
  rw [hb]
  simp

end Verif.XMLLex
