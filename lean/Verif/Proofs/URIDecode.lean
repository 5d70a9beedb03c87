import Verif.Spec.URIComps

/-! # Reading back the text of canonical components -/

namespace Verif.URI
open Verif.Spec.URI

theorem cut_none (p : Char → Bool) (s : List Char) (h : ∀ x ∈ s, p x = false) : cut p s = (s, none) := by
  induction s with
  | nil => rfl
  | cons c s ih => simp [cut, h c (by simp), ih (fun x hx => h x (by simp [hx]))]

theorem cut_some (p : Char → Bool) (a : List Char) (c : Char) (b : List Char) (h : ∀ x ∈ a, p x = false) (hc : p c = true) :
    cut p (a ++ c :: b) = (a, some b) := by
  induction a with
  | nil => simp [cut, hc]
  | cons d a ih => simp [cut, h d (by simp), ih (fun x hx => h x (by simp [hx]))]

/-- Optional part introduced by a separator. -/
theorem cut_opt (c : Char) (a b : List Char) (h : ∀ x ∈ a, x ≠ c) :
    cut (· == c) (a ++ if b ≠ [] then c :: b else []) = (a, if b ≠ [] then some b else none) := by
  by_cases hb : b = []
  · simp only [hb, ne_eq, not_true_eq_false, if_false, List.append_nil]
    exact cut_none _ _ (fun x hx => by simpa using h x hx)
  · simp only [ne_eq, hb, not_false_eq_true, if_true]
    exact cut_some _ _ _ _ (fun x hx => by simpa using h x hx) (by simp)

theorem getD_opt (b : List Char) : (if b ≠ [] then some b else none).getD [] = b := by
  by_cases hb : b = [] <;> simp [hb]

theorem takeWhile_path (a path : List Char) (ha : ∀ x ∈ a, x ≠ '/') (hp : path = [] ∨ path.head? = some '/') :
    (a ++ path).takeWhile (· ≠ '/') = a ∧ (a ++ path).dropWhile (· ≠ '/') = path := by
  have hpp : path.takeWhile (· ≠ '/') = [] ∧ path.dropWhile (· ≠ '/') = path := by
    cases path with
    | nil => simp
    | cons c cs =>
      have : c = '/' := by simpa using hp
      simp [this]
  constructor
  · rw [List.takeWhile_append_of_pos (by simpa using ha), hpp.1, List.append_nil]
  · rw [List.dropWhile_append_of_pos (by simpa using ha), hpp.2]

/-- User, password, host and port of an authority text. -/
theorem decode_auth (c : Comps) (h : Canonical c) : readAuthority (authorityText c) = (c.username, c.password, c.host, c.port) := by
  have hhp : ∀ x ∈ c.host ++ (if c.port ≠ [] then ':' :: c.port else []), x ≠ '@' := by
    intro x hx
    rcases List.mem_append.1 hx with hx | hx
    · have := h.host x hx; simp only [List.mem_cons, not_or] at this; exact this.2.1
    · split at hx
      · rcases List.mem_cons.1 hx with rfl | hx
        · decide
        · have := h.port x hx; simp only [List.mem_cons, not_or] at this; exact this.1
      · simp at hx
  have hhost : ∀ x ∈ c.host, x ≠ ':' := by
    intro x hx; have := h.host x hx; simp only [List.mem_cons, not_or] at this; exact this.1
  have huser : ∀ x ∈ c.username, x ≠ ':' := by
    intro x hx; have := h.username x hx; simp only [List.mem_cons, not_or] at this; exact this.1
  unfold readAuthority authorityText
  by_cases hu : c.username ≠ [] ∨ c.password ≠ []
  · rw [if_pos hu]
    have hinfo : ∀ x ∈ c.username ++ (if c.password ≠ [] then ':' :: c.password else []), x ≠ '@' := by
      intro x hx
      rcases List.mem_append.1 hx with hx | hx
      · have := h.username x hx; simp only [List.mem_cons, not_or] at this; exact this.2.1
      · split at hx
        · rcases List.mem_cons.1 hx with rfl | hx
          · decide
          · have := h.password x hx; simp only [List.mem_cons, not_or] at this; exact this.1
        · simp at hx
    have := cut_some (· == '@') (c.username ++ (if c.password ≠ [] then ':' :: c.password else [])) '@'
      (c.host ++ (if c.port ≠ [] then ':' :: c.port else [])) (fun x hx => by simpa using hinfo x hx) (by simp)
    have he : c.username ++ (if c.password ≠ [] then ':' :: c.password else []) ++ ['@'] ++ c.host ++
        (if c.port ≠ [] then ':' :: c.port else []) =
        (c.username ++ (if c.password ≠ [] then ':' :: c.password else [])) ++ '@' :: (c.host ++
        (if c.port ≠ [] then ':' :: c.port else [])) := by simp
    rw [he, this]
    simp only [cut_opt ':' _ _ huser, cut_opt ':' _ _ hhost, getD_opt]
  · have h1 : c.username = [] := Classical.not_not.1 fun h => hu (.inl h)
    have h2 : c.password = [] := Classical.not_not.1 fun h => hu (.inr h)
    rw [if_neg hu, List.nil_append, cut_none _ _ (fun x hx => by simpa using hhp x hx)]
    simp only [cut_opt ':' _ _ hhost, getD_opt, cut, h1, h2, Option.getD_none]

theorem authorityText_mem (c : Comps) (h : Canonical c) (x : Char) (hx : x ∈ authorityText c) : x ∉ ['/', '?', '#'] := by
  have := h.username x; have := h.password x; have := h.host x; have := h.port x
  have h1 : (':' : Char) ∉ ['/', '?', '#'] := by decide
  have h2 : ('@' : Char) ∉ ['/', '?', '#'] := by decide
  unfold authorityText at hx
  simp only [List.mem_append, List.mem_ite_nil_right, List.mem_cons, List.not_mem_nil, or_false] at *
  grind

theorem rawOf_eq (c : Comps) : rawOf c =
    (((if c.scheme ≠ [] then c.scheme ++ [':'] else []) ++
    (if c.username ≠ [] ∨ c.password ≠ [] ∨ c.host ≠ [] ∨ c.port ≠ [] then '/' :: '/' :: authorityText c else []) ++ c.path) ++
    (if c.query ≠ [] then '?' :: c.query else [])) ++
    (if c.fragment ≠ [] then '#' :: c.fragment else []) := by
  unfold rawOf authorityText
  congr 3

/-- The text of canonical components is read back as these components: canonical URIs have different texts. -/
theorem decode_rawOf (c : Comps) (h : Canonical c) : decode (rawOf c) = c := by
  rw [rawOf_eq]
  have hsc : ∀ x ∈ c.scheme, x ≠ ':' ∧ x ≠ '/' ∧ x ≠ '?' ∧ x ≠ '#' := by
    intro x hx; have := h.scheme x hx; simpa using this
  have hau : ∀ x ∈ authorityText c, x ≠ '/' ∧ x ≠ '?' ∧ x ≠ '#' := by
    intro x hx; have := authorityText_mem c h x hx; simpa using this
  have hpa : ∀ x ∈ c.path, x ≠ '?' ∧ x ≠ '#' := by
    intro x hx; have := h.path x hx; simpa using this
  generalize hS : (if c.scheme ≠ [] then c.scheme ++ [':'] else []) = S
  generalize hA : (if c.username ≠ [] ∨ c.password ≠ [] ∨ c.host ≠ [] ∨ c.port ≠ [] then '/' :: '/' :: authorityText c else []) = A
  have hbody : ∀ x ∈ S ++ A ++ c.path, x ≠ '?' ∧ x ≠ '#' := by
    intro x hx
    simp only [List.mem_append] at hx
    rcases hx with (hx | hx) | hx
    · rw [← hS] at hx
      split at hx
      · simp only [List.mem_append, List.mem_singleton] at hx
        rcases hx with hx | rfl
        · exact ⟨(hsc x hx).2.2.1, (hsc x hx).2.2.2⟩
        · decide
      · simp at hx
    · rw [← hA] at hx
      split at hx
      · simp only [List.mem_cons] at hx
        rcases hx with rfl | rfl | hx
        · decide
        · decide
        · exact (hau x hx).2
      · simp at hx
    · exact hpa x hx
  have hbq : ∀ x ∈ S ++ A ++ c.path ++ (if c.query ≠ [] then '?' :: c.query else []), x ≠ '#' := by
    intro x hx
    rcases List.mem_append.1 hx with hx | hx
    · exact (hbody x hx).2
    · split at hx
      · rcases List.mem_cons.1 hx with rfl | hx
        · decide
        · exact h.query x hx
      · simp at hx
  unfold decode
  rw [cut_opt '#' _ _ hbq]
  simp only
  rw [cut_opt '?' _ _ (fun x hx => (hbody x hx).1)]
  simp only [getD_opt]
  -- the scheme
  have hscheme : readScheme (S ++ A ++ c.path) = (c.scheme, A ++ c.path) := by
    unfold readScheme
    by_cases hs : c.scheme = []
    · have hS' : S = [] := by rw [← hS, if_neg (by simp [hs])]
      subst hS'
      rw [List.nil_append, hs]
      by_cases ha : c.username ≠ [] ∨ c.password ≠ [] ∨ c.host ≠ [] ∨ c.port ≠ []
      · rw [if_pos ha] at hA
        subst hA
        simp [cut]
      · rw [if_neg ha] at hA
        subst hA
        simp only [not_or, Classical.not_not] at ha
        have hn := h.noScheme hs ha.1 ha.2.1 ha.2.2.1 ha.2.2.2
        rw [List.nil_append]
        have hspl := List.takeWhile_append_dropWhile (p := (· ≠ '/')) (l := c.path)
        have hhd := List.head?_dropWhile_not (p := (· ≠ '/')) c.path
        have hns : ∀ x ∈ c.path.takeWhile (· ≠ '/'), x ≠ '/' := by
          intro x hx
          have : ∀ l : List Char, x ∈ l.takeWhile (· ≠ '/') → x ≠ '/' := by
            intro l
            induction l with
            | nil => simp
            | cons d l ih =>
              by_cases hd : d = '/'
              · simp [hd]
              · intro hx
                rw [List.takeWhile_cons_of_pos (by simpa using hd)] at hx
                rcases List.mem_cons.1 hx with rfl | hx
                · exact hd
                · exact ih hx
          exact this _ hx
        generalize hT : c.path.takeWhile (· ≠ '/') = T at hspl hn hns
        generalize hD : c.path.dropWhile (· ≠ '/') = D at hspl hhd
        have hTp : ∀ x ∈ T, (fun c : Char => c == ':' || c == '/') x = false := by
          intro x hx
          have h1 : x ≠ ':' := by rintro rfl; exact hn hx
          simp [h1, hns x hx]
        rw [← hspl]
        cases D with
        | nil =>
          rw [List.append_nil, cut_none _ _ hTp]
          simp
        | cons d D =>
          have hd : d = '/' := by simpa using hhd
          subst hd
          rw [cut_some _ _ _ _ hTp (by simp)]
          simp
    · have hS' : S = c.scheme ++ [':'] := by rw [← hS, if_pos hs]
      subst hS'
      have he : c.scheme ++ [':'] ++ A ++ c.path = c.scheme ++ ':' :: (A ++ c.path) := by simp
      rw [he, cut_some _ _ _ _ (fun x hx => by simp [(hsc x hx).1, (hsc x hx).2.1]) (by simp)]
      simp
  simp only [hscheme]
  by_cases ha : c.username ≠ [] ∨ c.password ≠ [] ∨ c.host ≠ [] ∨ c.port ≠ []
  · rw [if_pos ha] at hA
    subst hA
    obtain ⟨t1, t2⟩ := takeWhile_path (authorityText c) c.path (fun x hx => (hau x hx).1) (h.afterAuthority ha)
    have hh : hasAuthority ('/' :: '/' :: authorityText c ++ c.path) = true := by simp [hasAuthority]
    have hd : ('/' :: '/' :: authorityText c ++ c.path).drop 2 = authorityText c ++ c.path := by simp
    rw [hh, hd]
    simp only [if_true, t1, t2, decode_auth c h]
  · rw [if_neg ha] at hA
    subst hA
    simp only [not_or, Classical.not_not] at ha
    have hn := h.noAuthority ha.1 ha.2.1 ha.2.2.1 ha.2.2.2
    have hh : hasAuthority c.path = false := by simpa [hasAuthority] using hn
    rw [List.nil_append, hh]
    obtain ⟨a1, a2, a3, a4⟩ := ha
    cases c
    simp_all

/-! ## Positions of texts -/

theorem isPrefixOf_indexOf (sub s : List Char) : (indexOf sub s).toNat ≤ s.length := by
  induction s with
  | nil => unfold indexOf; split <;> simp
  | cons c s ih =>
    unfold indexOf
    split
    · simp
    · cases h : indexOf sub s with
      | ofNat n => rw [h] at ih; simp only [List.length_cons] at *; simp at ih ⊢; omega
      | negSucc n => simp

/-- `strings.Index` finds the first occurrence. -/
theorem indexOf_first (sub : List Char) (a b : List Char)
    (h : ∀ a' b', a ++ sub ++ b = a' ++ sub ++ b' → a.length ≤ a'.length) : indexOf sub (a ++ sub ++ b) = a.length := by
  induction a with
  | nil =>
    simp only [List.nil_append, List.length_nil]
    cases hs : sub ++ b with
    | nil =>
      have : sub = [] := (List.append_eq_nil_iff.1 hs).1
      simp [indexOf, this]
    | cons c s =>
      unfold indexOf
      rw [if_pos]
      · rfl
      · rw [← hs]; exact List.isPrefixOf_iff_prefix.2 ⟨b, rfl⟩
  | cons c a ih =>
    rw [List.cons_append, List.cons_append, indexOf, if_neg]
    · rw [ih]
      · simp
      · intro a' b' hab
        have := h (c :: a') b' (by simp [hab])
        simpa using this
    · intro hp
      obtain ⟨r, hr⟩ := List.isPrefixOf_iff_prefix.1 hp
      have := h [] r (by simpa using hr.symm)
      simp at this

end Verif.URI
