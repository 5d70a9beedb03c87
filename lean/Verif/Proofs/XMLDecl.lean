import Verif.Spec.XMLDecl

/-!
# Lemmas about the declaration of an XML document
-/
set_option autoImplicit false
namespace Verif.XMLDecl

theorem decodeRune_char (c : Nat) (h : c < 55296 ∨ (57344 ≤ c ∧ c < 1114112)) (r : Bytes) : decodeRune (utf8Char c ++ r) = some (c, r) := by
  unfold utf8Char
  split
  · rename_i h1; simp [decodeRune, h1]
  · split
    · rename_i h1 h2
      have a1 : ¬ 192 + c / 64 < 128 := by omega
      have a2 : ¬ 192 + c / 64 < 194 := by omega
      have a3 : 192 + c / 64 < 224 := by omega
      have a4 : isCont (128 + c % 64) = true := by simp [isCont]; omega
      have e : (192 + c / 64 - 192) * 64 + (128 + c % 64 - 128) = c := by omega
      simp only [List.cons_append, List.nil_append, decodeRune, a1, a2, a3, a4, e, if_true, if_false]
    · split
      · rename_i h1 h2 h3
        have a1 : ¬ 224 + c / 4096 < 128 := by omega
        have a2 : ¬ 224 + c / 4096 < 194 := by omega
        have a3 : ¬ 224 + c / 4096 < 224 := by omega
        have a3' : 224 + c / 4096 < 240 := by omega
        have a4 : isCont (128 + c % 64) = true := by simp [isCont]; omega
        have a5 : isCont (128 + c / 64 % 64) = true := by simp [isCont]; omega
        have e : (224 + c / 4096 - 224) * 4096 + (128 + c / 64 % 64 - 128) * 64 + (128 + c % 64 - 128) = c := by omega
        have a6 : decide (2048 ≤ c) = true := by simp; omega
        have a7 : (decide (55296 ≤ c) && decide (c < 57344)) = false := by simp; omega
        simp only [List.cons_append, List.nil_append, decodeRune, a1, a2, a3, a3', a4, a5, e, a6, a7, if_true, if_false, Bool.and_true, Bool.not_false]
      · rename_i h1 h2 h3
        have a1 : ¬ 240 + c / 262144 < 128 := by omega
        have a2 : ¬ 240 + c / 262144 < 194 := by omega
        have a3 : ¬ 240 + c / 262144 < 224 := by omega
        have a3' : ¬ 240 + c / 262144 < 240 := by omega
        have a3'' : 240 + c / 262144 < 245 := by omega
        have a4 : isCont (128 + c % 64) = true := by simp [isCont]; omega
        have a5 : isCont (128 + c / 64 % 64) = true := by simp [isCont]; omega
        have a6 : isCont (128 + c / 4096 % 64) = true := by simp [isCont]; omega
        have e : (240 + c / 262144 - 240) * 262144 + (128 + c / 4096 % 64 - 128) * 4096 + (128 + c / 64 % 64 - 128) * 64 + (128 + c % 64 - 128) = c := by omega
        have a7 : decide (65536 ≤ c) = true := by simp; omega
        have a8 : decide (c < 1114112) = true := by simp; omega
        simp only [List.cons_append, List.nil_append, decodeRune, a1, a2, a3, a3', a3'', a4, a5, a6, e, a7, a8, if_true, if_false, Bool.and_true]

theorem utf8Char_ne (c : Nat) : utf8Char c ≠ [] := by unfold utf8Char; (repeat' split) <;> simp

theorem decodeText_utf8 (text : List Nat) (h : Characters text) (fuel : Nat) (hf : (utf8 text).length ≤ fuel) : decodeText fuel (utf8 text) = some text := by
  induction text generalizing fuel with
  | nil => cases fuel <;> simp [utf8, decodeText]
  | cons c t ih =>
    have hc := h c (by simp)
    have ht : Characters t := fun x hx => h x (by simp [hx])
    have e : utf8 (c :: t) = utf8Char c ++ utf8 t := by simp [utf8]
    rw [e] at hf ⊢
    have hr := decodeRune_char c hc (utf8 t)
    cases hu : utf8Char c with
    | nil => exact absurd hu (utf8Char_ne c)
    | cons b s =>
      rw [hu] at hr hf
      rw [List.cons_append] at hr ⊢
      cases fuel with
      | zero => simp at hf
      | succ n =>
        simp only [decodeText, hr]
        rw [ih ht n (by simp at hf; omega)]
        rfl

theorem before_append (q : Nat) (v s : Bytes) (h : q ∉ v) : before q (v ++ q :: s) = some v := by
  induction v with
  | nil => simp [before]
  | cons b v ih =>
    have hb : b ≠ q := by intro e; subst e; simp at h
    simp [before, hb, ih (by intro e; exact h (by simp [e]))]

theorem instruction_append (v s : Bytes) (h : 63 ∉ v) : instruction (v ++ 63 :: 62 :: s) = some (v, s) := by
  induction v with
  | nil => simp [instruction]
  | cons b v ih =>
    have hb : b ≠ 63 := by intro e; subst e; simp at h
    have ih := ih (by intro e; exact h (by simp [e]))
    cases hv : v ++ 63 :: 62 :: s with
    | nil => simp at hv
    | cons a t => rw [List.cons_append, hv] ; rw [hv] at ih; simp [instruction, hb, ih]

/-- what follows has been found -/
theorem after_here (p s : Bytes) (hp : p ≠ []) : after p (p ++ s) = some s := by
  cases p with
  | nil => exact absurd rfl hp
  | cons a p => simp [after]

/-- bytes that are not the last one of what is searched for, up to one that is not in it, are left out -/
theorem after_skip (p : Bytes) (l : Nat) (hl : l ∈ p) (c : Nat) (hc : c ∉ p) (v s : Bytes) (hv : l ∉ v) : after p (v ++ c :: s) = after p s := by
  induction v with
  | nil =>
    rw [List.nil_append, after, if_neg]
    intro e
    cases p with
    | nil => simp at hl
    | cons a p => simp at e; simp [e.1] at hc
  | cons b v ih =>
    rw [List.cons_append, after, if_neg, ih (by intro e; exact hv (by simp [e]))]
    intro e
    rw [List.isPrefixOf_iff_prefix] at e
    obtain ⟨r, e⟩ := e
    rw [← List.cons_append, List.append_eq_append_iff] at e
    rcases e with ⟨w, e1, e2⟩ | ⟨w, e1, e2⟩
    · exact hv (e1 ▸ by simp [hl])
    · cases w with
      | nil => simp at e1; exact hv (e1 ▸ hl)
      | cons x w =>
        simp at e2
        exact hc (by rw [e1, e2.1]; simp)

theorem name_not (s : Bytes) (h : Name s) (b : Nat) (hb : b = 34 ∨ b = 61 ∨ b = 63) : b ∉ s := by
  intro e
  have := h b e
  omega

/-- the parts of the declaration -/
theorem content_version (v e : Bytes) (hv : Name v) :
    procInst (lit "version") (lit "version=\"" ++ v ++ lit "\" encoding=\"" ++ e ++ lit "\"") = v := by
  have e1 : lit "version=\"" ++ v ++ lit "\" encoding=\"" ++ e ++ lit "\"" = (lit "version" ++ lit "=") ++ (34 :: (v ++ 34 :: (lit " encoding=\"" ++ e ++ lit "\""))) := by
    have a : lit "version=\"" = (lit "version" ++ lit "=") ++ [34] := by decide
    have b : lit "\" encoding=\"" = 34 :: lit " encoding=\"" := by decide
    rw [a, b]; simp
  rw [e1, procInst, after_here _ _ (by decide)]
  simp [before_append 34 v _ (name_not v hv 34 (by simp))]

theorem content_encoding (v e : Bytes) (hv : Name v) (he : Name e) :
    procInst (lit "encoding") (lit "version=\"" ++ v ++ lit "\" encoding=\"" ++ e ++ lit "\"") = e := by
  have e1 : lit "version=\"" ++ v ++ lit "\" encoding=\"" ++ e ++ lit "\"" =
      lit "version=" ++ 34 :: (v ++ 34 :: ([] ++ 32 :: ((lit "encoding" ++ lit "=") ++ (34 :: (e ++ 34 :: []))))) := by
    have a : lit "version=\"" = lit "version=" ++ [34] := by decide
    have b : lit "\" encoding=\"" = 34 :: 32 :: (lit "encoding" ++ lit "=") ++ [34] := by decide
    have c : lit "\"" = [34] := by decide
    rw [a, b, c]; simp
  rw [e1, procInst, after_skip _ 99 (by decide) 34 (by decide) _ _ (by decide), after_skip _ 61 (by decide) 34 (by decide) _ _ (name_not v hv 61 (by simp)),
    after_skip _ 61 (by decide) 32 (by decide) _ _ (by decide), after_here _ _ (by decide)]
  simp [before_append 34 e _ (name_not e he 34 (by simp))]

theorem load_save (charsets : Bytes → Option (Bytes → Bytes)) (v e : Bytes) (hv : Name v) (he : Name e) (text : List Nat) :
    load charsets (save v e text) =
      if v ≠ [] ∧ v ≠ lit "1.0" then none
      else if e ≠ [] ∧ e.map lower ≠ lit "utf-8" then
        match charsets e with
        | none => none
        | some conv => (decodeText (conv (utf8 text)).length (conv (utf8 text))).map (fun t => ⟨v, e, t⟩)
      else (decodeText (utf8 text).length (utf8 text)).map (fun t => ⟨v, e, t⟩) := by
  have e1 : save v e text = lit "<?xml " ++ ((lit "version=\"" ++ v ++ lit "\" encoding=\"" ++ e ++ lit "\"") ++ 63 :: 62 :: utf8 text) := by
    have a : lit "<?xml version=\"" = lit "<?xml " ++ lit "version=\"" := by decide
    have b : lit "\"?>" = lit "\"" ++ [63, 62] := by decide
    rw [save, header, a, b]; simp
  have e2 : (lit "<?xml ").isPrefixOf (save v e text) = true := by rw [e1, List.isPrefixOf_iff_prefix]; exact ⟨_, rfl⟩
  have e3 : (save v e text).drop 6 = (lit "version=\"" ++ v ++ lit "\" encoding=\"" ++ e ++ lit "\"") ++ 63 :: 62 :: utf8 text := by
    rw [e1]; exact List.drop_left' (by decide)
  have e4 : 63 ∉ lit "version=\"" ++ v ++ lit "\" encoding=\"" ++ e ++ lit "\"" := by
    have h1 := name_not v hv 63 (by simp)
    have h2 := name_not e he 63 (by simp)
    simp only [List.mem_append, not_or]
    exact ⟨⟨⟨⟨by decide, h1⟩, by decide⟩, h2⟩, by decide⟩
  rw [load, if_pos e2, e3, instruction_append _ _ e4]
  simp only [content_version v e hv, content_encoding v e hv he]
  rfl

theorem utf8_ascii (text : List Nat) (h : ∀ c ∈ text, c < 128) : utf8 text = text := by
  induction text with
  | nil => rfl
  | cons c t ih =>
    have hc := h c (by simp)
    have e : utf8 (c :: t) = utf8Char c ++ utf8 t := by simp [utf8]
    rw [e, ih (fun x hx => h x (by simp [hx]))]
    simp [utf8Char, hc]

theorem utf8Char_length (c : Nat) : 1 ≤ (utf8Char c).length ∧ (128 ≤ c → 2 ≤ (utf8Char c).length) := by
  unfold utf8Char
  split
  · simp; omega
  · split
    · simp
    · split <;> simp

theorem utf8_length (text : List Nat) : text.length ≤ (utf8 text).length := by
  induction text with
  | nil => simp
  | cons c t ih =>
    have e : utf8 (c :: t) = utf8Char c ++ utf8 t := by simp [utf8]
    have := (utf8Char_length c).1
    rw [e]; simp; omega

theorem utf8_longer (text : List Nat) (h : ∃ c ∈ text, 128 ≤ c) : text.length < (utf8 text).length := by
  induction text with
  | nil => simp at h
  | cons c t ih =>
    have e : utf8 (c :: t) = utf8Char c ++ utf8 t := by simp [utf8]
    have h1 := utf8Char_length c
    have h2 := utf8_length t
    rw [e]
    obtain ⟨x, hx, hx'⟩ := h
    rw [List.mem_cons] at hx
    rcases hx with hx | hx
    · subst hx; have := h1.2 hx'; simp; omega
    · have := ih ⟨x, hx, hx'⟩; have := h1.1; simp; omega

end Verif.XMLDecl
