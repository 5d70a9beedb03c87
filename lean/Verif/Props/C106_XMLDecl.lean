import Verif.Proofs.XMLDecl

/-!
# C106: A document is read with the version, the encoding and the text it was written with
-/
set_option autoImplicit false
namespace Verif.XMLDecl

/-- With the version and the encoding an encoder has at first, or UTF-8 in other letters, or no encoding at all: any text is read again, with the version and the
encoding that were written. -/
theorem C106_utf8_partial (charsets : Bytes → Option (Bytes → Bytes)) (e : Bytes) (he : e = [] ∨ e = lit "UTF-8" ∨ e = lit "utf-8" ∨ e = lit "Utf-8")
    (text : List Nat) (ht : Characters text) : load charsets (save (lit "1.0") e text) = some ⟨lit "1.0", e, text⟩ := by
  have hn : Name e := by rcases he with rfl | rfl | rfl | rfl <;> decide
  have hl : ¬ (e ≠ [] ∧ e.map lower ≠ lit "utf-8") := by rcases he with rfl | rfl | rfl | rfl <;> decide
  rw [load_save charsets _ e (by decide) hn, if_neg (by decide), if_neg hl, decodeText_utf8 text ht _ (Nat.le_refl _)]
  rfl

example : Characters [10, 60, 233, 8364, 128512] ∧ (save (lit "1.0") (lit "UTF-8") [233]).length = 40 ∧
    load (fun _ => none) (save (lit "1.0") (lit "UTF-8") [10, 60, 233, 8364, 128512]) = some ⟨lit "1.0", lit "UTF-8", [10, 60, 233, 8364, 128512]⟩ := by decide

/-- With any other encoding that is known and has the characters of ASCII where ASCII has them: a text of these characters is read again. -/
theorem C106_ascii_partial (charsets : Bytes → Option (Bytes → Bytes)) (e : Bytes) (hn : Name e) (conv : Bytes → Bytes) (hc : charsets e = some conv)
    (ha : ∀ s : Bytes, (∀ b ∈ s, b < 128) → conv s = s) (text : List Nat) (ht : ∀ c ∈ text, c < 128) :
    load charsets (save (lit "1.0") e text) = some ⟨lit "1.0", e, text⟩ := by
  have hch : Characters text := fun c hc => Or.inl (by have := ht c hc; omega)
  have hd := decodeText_utf8 text hch _ (Nat.le_refl _)
  have hu : conv (utf8 text) = utf8 text := by rw [utf8_ascii text ht]; exact ha text ht
  rw [load_save charsets _ e (by decide) hn, if_neg (by decide)]
  split
  · simp only [hc, hu, hd, Option.map_some]
  · simp only [hd, Option.map_some]

example : Name (lit "ISO-8859-1") ∧
    load (fun _ => some (fun s => utf8 s)) (save (lit "1.0") (lit "ISO-8859-1") [10, 60, 97]) = some ⟨lit "1.0", lit "ISO-8859-1", [10, 60, 97]⟩ := by decide

/-- Whatever the text and the encodings that are known are: when the document is read, the version and the encoding are those that were written. -/
theorem C106_declared_partial (charsets : Bytes → Option (Bytes → Bytes)) (v e : Bytes) (hv : Name v) (he : Name e) (text : List Nat) (d : Doc)
    (h : load charsets (save v e text) = some d) : d.version = v ∧ d.encoding = e := by
  rw [load_save charsets v e hv he] at h
  split at h
  · cases h
  · split at h
    · cases hc : charsets e with
      | none => simp [hc] at h
      | some conv =>
        simp only [hc, Option.map_eq_some_iff] at h
        obtain ⟨t, _, rfl⟩ := h
        exact ⟨rfl, rfl⟩
    · simp only [Option.map_eq_some_iff] at h
      obtain ⟨t, _, rfl⟩ := h
      exact ⟨rfl, rfl⟩

example : load (fun _ => some (fun s => utf8 s)) (save [] (lit "latin1") [233]) = some ⟨[], lit "latin1", [195, 169]⟩ := by decide

/-- An encoding that is not known is an error, and not a text read with another one. -/
theorem C106_unknown (charsets : Bytes → Option (Bytes → Bytes)) (v e : Bytes) (hv : Name v) (he : Name e) (hne : e ≠ []) (hu : e.map lower ≠ lit "utf-8")
    (hc : charsets e = none) (text : List Nat) : load charsets (save v e text) = none := by
  rw [load_save charsets v e hv he]
  split
  · rfl
  · rw [if_pos ⟨hne, hu⟩, hc]

example : load (fun _ => none) (save (lit "1.0") (lit "nothing") [97]) = none := by decide

/-- Contrary to the claim, a document written with any other version than 1.0 cannot be read. -/
theorem C106_version_violated (charsets : Bytes → Option (Bytes → Bytes)) (v e : Bytes) (hv : Name v) (he : Name e) (hne : v ≠ []) (h1 : v ≠ lit "1.0")
    (text : List Nat) : load charsets (save v e text) = none := by
  rw [load_save charsets v e hv he, if_pos ⟨hne, h1⟩]

example : load (fun _ => none) (save (lit "1.1") (lit "UTF-8") [97]) = none := by decide

/-- Contrary to the claim, the encoding is declared but the text is written in UTF-8 all the same: with an encoding of one byte for each character, no text with a
character outside ASCII is read again. -/
theorem C106_encoding_violated (charsets : Bytes → Option (Bytes → Bytes)) (e : Bytes) (he : Name e) (hne : e ≠ []) (hu : e.map lower ≠ lit "utf-8")
    (table : Nat → Nat) (htable : ∀ b, table b < 55296) (hc : charsets e = some (fun s => utf8 (s.map table))) (text : List Nat) (ho : ∃ c ∈ text, 128 ≤ c) :
    ∃ t, load charsets (save (lit "1.0") e text) = some ⟨lit "1.0", e, t⟩ ∧ text.length < t.length := by
  have hch : Characters ((utf8 text).map table) := by
    intro c hc
    obtain ⟨b, _, rfl⟩ := List.mem_map.1 hc
    exact Or.inl (htable b)
  have hd := decodeText_utf8 _ hch _ (Nat.le_refl _)
  refine ⟨(utf8 text).map table, ?_, ?_⟩
  · rw [load_save charsets _ e (by decide) he, if_neg (by decide), if_pos ⟨hne, hu⟩, hc]
    simp only [hd, Option.map_some]
  · rw [List.length_map]; exact utf8_longer text ho

example : load (fun _ => some (fun s => utf8 (s.map (fun b => b % 256)))) (save (lit "1.0") (lit "ISO-8859-1") [10, 233]) =
    some ⟨lit "1.0", lit "ISO-8859-1", [10, 195, 169]⟩ := by decide

/-- Contrary to the claim, spaces around the equals sign, which XML allows, hide the encoding: such a document in ISO-8859-1 is an error, or has no encoding. -/
theorem C106_spaces_violated :
    load (fun _ => some (fun s => utf8 s)) (lit "<?xml version = \"1.0\" encoding = \"ISO-8859-1\"?>" ++ [10, 233]) = none ∧
    load (fun _ => some (fun s => utf8 s)) (lit "<?xml version=\"1.0\" encoding=\"ISO-8859-1\"?>" ++ [10, 233]) =
      some ⟨lit "1.0", lit "ISO-8859-1", [10, 233]⟩ ∧
    load (fun _ => some (fun s => utf8 s)) (lit "<?xml version = \"1.0\" encoding = \"ISO-8859-1\"?>" ++ [10]) = some ⟨[], [], [10]⟩ := by decide

end Verif.XMLDecl
