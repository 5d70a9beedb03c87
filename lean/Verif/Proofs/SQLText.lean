import Verif.Spec.SQLText

/-!
# Reading the text of SQL statements
-/

namespace Verif.SQLText

open Spec

theorem feedAll_append (s : State) (a b : Text) :
    feedAll s (a ++ b) = ((feedAll (feedAll s a).1 b).1, (feedAll s a).2 ++ (feedAll (feedAll s a).1 b).2) := by
  induction a generalizing s with
  | nil => simp [feedAll]
  | cons c a ih => simp [feedAll, ih, List.append_assoc]

/-- characters that end what was begun before -/
def isBreak (c : Char) : Bool := c ∈ " \n(),;=<".toList

def brk : Text → Bool
  | c :: _ => isBreak c
  | [] => false

theorem isBreak_not (c : Char) (h : isBreak c = true) : idChar c = false ∧ isDigit c = false ∧ c ≠ '"' ∧ c ≠ '-' := by
  unfold isBreak at h
  have hm : c ∈ [' ', '\n', '(', ')', ',', ';', '=', '<'] := of_decide_eq_true h
  have hall : ∀ c ∈ [' ', '\n', '(', ')', ',', ';', '=', '<'], idChar c = false ∧ isDigit c = false ∧ c ≠ '"' ∧ c ≠ '-' := by decide
  exact hall c hm

theorem feed_break {s : State} {r : List Tok} (hf : finish s = some r) (hc : s ≠ .comment) {c : Char} (hb : isBreak c = true) :
    feed s c = ((first c).1, r ++ (first c).2) := by
  obtain ⟨h1, h2, h3, h4⟩ := isBreak_not c hb
  cases s <;> simp_all [finish, feed, out] <;> subst hf <;> simp

theorem feedAll_break {s : State} {r : List Tok} (hf : finish s = some r) (hc : s ≠ .comment) {a : Text} (hb : brk a = true) :
    feedAll s a = ((feedAll .start a).1, r ++ (feedAll .start a).2) := by
  cases a with
  | nil => cases hb
  | cons c a =>
    have h := feed_break hf hc hb (c := c)
    have h0 : feed .start c = first c := rfl
    simp only [feedAll]
    rw [h, h0]
    simp [List.append_assoc]

/-! ## Names -/

theorem feedAll_word (t : Text) (h : t.all idChar = true) : ∀ w : Text, feedAll (.word w) t = (.word (w ++ t), []) := by
  induction t with
  | nil => intro w; simp [feedAll]
  | cons c t ih =>
    intro w
    simp only [List.all_cons, Bool.and_eq_true] at h
    simp [feedAll, feed, h.1, ih h.2]

theorem idStart_not_space {c : Char} (h : idStart c = true) : isSpace c = false := by
  unfold isSpace
  simp only [Bool.or_eq_false_iff, decide_eq_false_iff_not]
  refine ⟨⟨⟨⟨?_, ?_⟩, ?_⟩, ?_⟩, ?_⟩ <;> rintro rfl <;> revert h <;> decide

theorem feedAll_plain {t : Text} (h : Plain t = true) : feedAll .start t = (.word t, []) := by
  cases t with
  | nil => cases h
  | cons c t =>
    simp only [Plain, Bool.and_eq_true] at h
    have h1 := idStart_not_space h.1
    simp [feedAll, feed, first, h1, h.1, feedAll_word t h.2]

theorem feedAll_quoted (t : Text) (h : '"' ∉ t) : ∀ w : Text, feedAll (.quoted w) t = (.quoted (w ++ t), []) := by
  induction t with
  | nil => intro w; simp [feedAll]
  | cons c t ih =>
    intro w
    simp only [List.mem_cons, not_or] at h
    have : c ≠ '"' := fun e => h.1 e.symm
    simp [feedAll, feed, this, ih h.2]

theorem feedAll_quote {t : Text} (h : '"' ∉ t) : feedAll .start ('"' :: t ++ ['"']) = (.quoteEnd t, []) := by
  have h1 : feed .start '"' = (.quoted [], []) := by decide
  rw [List.cons_append, feedAll, h1]
  simp only [feedAll_append, feedAll_quoted t h]
  simp [feedAll, feed]

/-- a name that can be used as it is -/
def Good (n : Text) : Prop := Plain n = true ∨ ∃ t, n = '.' :: t ∧ '"' ∉ t

theorem plain_quote {t : Text} (h : Plain t = true) : '"' ∉ t := by
  intro hq
  cases t with
  | nil => cases h
  | cons c t =>
    simp only [Plain, Bool.and_eq_true, List.all_eq_true] at h
    rcases List.mem_cons.1 hq with e | e
    · subst e; exact absurd h.1 (by decide)
    · exact absurd (h.2 _ e) (by decide)

theorem Good.quote {n : Text} (h : Good n) : '"' ∉ n := by
  rcases h with h | ⟨t, rfl, h⟩
  · exact plain_quote h
  · intro e; rcases List.mem_cons.1 e with e | e
    · cases e
    · exact h e

/-- the case mapping of the program is the one of SQLite for ASCII letters -/
def UpOk (up : Char → Char) : Prop := ∀ c : Char, c.toNat < 128 → up c = upper c

theorem keywords_ascii : ∀ k ∈ keywords, ∀ c ∈ k, c.toNat < 128 := by decide +kernel

theorem keywords_eq : keywords = sqliteKeyWords := by decide +kernel

theorem upper_lt {c : Char} (h : (upper c).toNat < 128) : c.toNat < 128 := by
  unfold upper at h
  split at h
  · omega
  · exact h

theorem keyword_escaped {up : Char → Char} (hup : UpOk up) {t : Text} (h : t.map upper ∈ keywords) : isKeyWord up t = true := by
  have ha : ∀ c ∈ t, c.toNat < 128 := by
    intro c hc
    exact upper_lt (keywords_ascii _ h (upper c) (List.mem_map.2 ⟨c, hc, rfl⟩))
  have he : t.map up = t.map upper := List.map_congr_left fun c hc => hup c (ha c hc)
  unfold isKeyWord
  rw [he, ← keywords_eq]
  simp [h]

theorem escape_seg {up : Char → Char} (hup : UpOk up) {n : Text} (h : Good n) :
    ∃ a s, escape up n = some a ∧ a ≠ [] ∧ feedAll .start a = (s, []) ∧ finish s = some [.id n] ∧ s ≠ .comment := by
  have hq := h.quote
  cases n with
  | nil => rcases h with h | ⟨t, h, _⟩ <;> cases h
  | cons c t =>
    by_cases hk : (c = '.' || isKeyWord up (c :: t)) = true
    · refine ⟨'"' :: (c :: t) ++ ['"'], .quoteEnd (c :: t), ?_, by simp, feedAll_quote hq, rfl, by simp⟩
      exact if_pos hk
    · have hp : Plain (c :: t) = true := by
        rcases h with h | ⟨u, e, _⟩
        · exact h
        · cases e; simp at hk
      refine ⟨c :: t, .word (c :: t), ?_, by simp, feedAll_plain hp, ?_, by simp⟩
      · exact if_neg hk
      · have : (c :: t).map upper ∉ keywords := fun hm => hk (by simp [keyword_escaped hup hm])
        simp only [finish, word, if_neg this]

/-- escaping twice is escaping once -/
theorem escape_twice {up : Char → Char} {n a : Text} (h : escape up n = some a) (hw : ∀ k ∈ sqliteKeyWords, '"' ∉ k)
    (hu : ∀ c, up c = '"' ↔ c = '"') : escape up a = some a := by
  have hkw : ∀ t : Text, isKeyWord up ('"' :: t) = false := by
    intro t
    unfold isKeyWord
    simp only [Bool.or_eq_false_iff, decide_eq_false_iff_not]
    refine ⟨fun hm => hw _ hm (by simp), fun hm => hw _ hm ?_⟩
    simp [(hu '"').2 rfl]
  cases n with
  | nil => cases h
  | cons c t =>
    have hd : ∀ (c : Char) (t : Text), escape up (c :: t) =
        if (c = '.' || isKeyWord up (c :: t)) = true then some ('"' :: (c :: t) ++ ['"']) else some (c :: t) := fun _ _ => rfl
    rw [hd] at h
    by_cases hk : (c = '.' || isKeyWord up (c :: t)) = true
    · rw [if_pos hk] at h
      cases h
      rw [List.cons_append, hd, hkw]
      rfl
    · rw [if_neg hk] at h
      cases h
      rw [hd, if_neg hk]

/-! ## Pieces -/

/-- the tokens of a text, and whether the last one may go on -/
def toksOf (t : Text) : List Tok := (lex t).getD []

def opens (t : Text) : Bool := decide ((feedAll .start t).1 ≠ .start)

/-- a text that is read by itself -/
def okText (t : Text) : Bool := t ≠ [] && (finish (feedAll .start t).1).isSome && (feedAll .start t).1 ≠ .comment

def pieceToks : Piece → List Tok
  | .lit t => toksOf t
  | .name n => [.id n]
  | .twice n => [.id n]

def pieceOpens : Piece → Bool
  | .lit t => opens t
  | _ => true

def pieceBreaks : Piece → Bool
  | .lit t => brk t
  | _ => false

def Piece.Ok : Piece → Prop
  | .lit t => okText t = true
  | .name n => Good n
  | .twice n => Good n

def toks (ps : List Piece) : List Tok := ps.flatMap pieceToks

/-- the pieces do not run into each other -/
def fits : Bool → List Piece → Bool
  | _, [] => true
  | o, p :: ps => (!o || pieceBreaks p) && fits (pieceOpens p) ps

def opensAfter : Bool → List Piece → Bool
  | o, [] => o
  | _, p :: ps => opensAfter (pieceOpens p) ps

theorem fits_append (o : Bool) (a b : List Piece) : fits o (a ++ b) = (fits o a && fits (opensAfter o a) b) := by
  induction a generalizing o with
  | nil => simp [fits, opensAfter]
  | cons p a ih => simp [fits, opensAfter, ih, Bool.and_assoc]

theorem opensAfter_append (o : Bool) (a b : List Piece) : opensAfter o (a ++ b) = opensAfter (opensAfter o a) b := by
  induction a generalizing o with
  | nil => rfl
  | cons p a ih => simp [opensAfter, ih]

theorem toks_append (a b : List Piece) : toks (a ++ b) = toks a ++ toks b := by simp [toks]

theorem kw_quote : ∀ k ∈ sqliteKeyWords, '"' ∉ k := by decide +kernel

/-- what is needed of the case mapping -/
structure CaseOk (up : Char → Char) : Prop where
  ascii : UpOk up
  quote : ∀ c, up c = '"' ↔ c = '"'

theorem piece_seg {up : Char → Char} (hup : CaseOk up) {p : Piece} (h : p.Ok) :
    ∃ a s ts r, piece up p = some a ∧ feedAll .start a = (s, ts) ∧ finish s = some r ∧ s ≠ .comment ∧ pieceToks p = ts ++ r ∧
      (pieceOpens p = false → s = .start) ∧ (pieceBreaks p = true → brk a = true) ∧ a ≠ [] := by
  cases p with
  | lit t =>
    simp only [Piece.Ok, okText, Bool.and_eq_true, decide_eq_true_eq, bne_iff_ne, ne_eq] at h
    obtain ⟨⟨h1, h2⟩, h3⟩ := h
    obtain ⟨r, hr⟩ := Option.isSome_iff_exists.1 h2
    refine ⟨t, (feedAll .start t).1, (feedAll .start t).2, r, rfl, rfl, hr, h3, ?_, ?_, fun h => h, h1⟩
    · simp [pieceToks, toksOf, lex, hr]
    · intro ho; simpa [pieceOpens, opens] using ho
  | name n =>
    obtain ⟨a, s, h1, h2, h3, h4, h5⟩ := escape_seg hup.ascii h
    exact ⟨a, s, [], _, h1, h3, h4, h5, rfl, by simp [pieceOpens], by simp [pieceBreaks], h2⟩
  | twice n =>
    obtain ⟨a, s, h1, h2, h3, h4, h5⟩ := escape_seg hup.ascii h
    refine ⟨a, s, [], _, ?_, h3, h4, h5, rfl, by simp [pieceOpens], by simp [pieceBreaks], h2⟩
    simp [piece, h1, escape_twice h1 kw_quote hup.quote]

theorem render_seg {up : Char → Char} (hup : CaseOk up) : ∀ (ps : List Piece) (o : Bool) (s : State) (r : List Tok), finish s = some r → s ≠ .comment →
    (o = false → s = .start) → fits o ps = true → (∀ p ∈ ps, p.Ok) →
    ∃ a s' ts r', render up ps = some a ∧ feedAll s a = (s', ts) ∧ finish s' = some r' ∧ ts ++ r' = r ++ toks ps := by
  intro ps
  induction ps with
  | nil =>
    intro o s r hf _ _ _ _
    exact ⟨[], s, [], r, rfl, rfl, hf, by simp [toks]⟩
  | cons p ps ih =>
    intro o s r hf hc ho hfit hok
    simp only [fits, Bool.and_eq_true, Bool.or_eq_true, Bool.not_eq_true'] at hfit
    obtain ⟨a, s1, ts1, r1, h1, h2, h3, h4, h5, h6, h7, h8⟩ := piece_seg hup (hok p (List.mem_cons_self ..))
    have hstep : feedAll s a = (s1, r ++ ts1) := by
      by_cases e : o = false
      · have := ho e
        subst this
        simp only [finish, Option.some.injEq] at hf
        subst hf
        rw [h2]; simp
      · have hb : brk a = true := h7 (by rcases hfit.1 with h | h; exact absurd h e; exact h)
        rw [feedAll_break hf hc hb, h2]
    obtain ⟨b, s', ts, r', g1, g2, g3, g4⟩ := ih (pieceOpens p) s1 r1 h3 h4 h6 hfit.2 fun q hq => hok q (List.mem_cons_of_mem _ hq)
    refine ⟨a ++ b, s', r ++ ts1 ++ ts, r', by simp [render, h1, g1], ?_, g3, ?_⟩
    · rw [feedAll_append, hstep]; simp [g2]
    · have : toks (p :: ps) = ts1 ++ r1 ++ toks ps := by simp [toks, h5]
      rw [this, List.append_assoc, g4]
      simp [List.append_assoc]

/-- What the pieces give is read as their tokens. -/
theorem render_lex {up : Char → Char} (hup : CaseOk up) {ps : List Piece} (hfit : fits false ps = true) (hok : ∀ p ∈ ps, p.Ok) :
    ∃ a, render up ps = some a ∧ lex a = some (toks ps) := by
  obtain ⟨a, s', ts, r', h1, h2, h3, h4⟩ := render_seg hup ps false .start [] rfl (by simp) (fun _ => rfl) hfit hok
  refine ⟨a, h1, ?_⟩
  unfold lex
  rw [h2]
  simp only [h3, Option.map_some, h4, List.nil_append]

end Verif.SQLText
