import Verif.Model.NetURL
import Verif.Spec.NetURL

namespace Verif.NetURL
open Verif.URI Verif.Spec.NetURL

theorem cutFirst_none (c : Char) (s : List Char) (h : c ∉ s) : cutFirst c s = (s, none) := by
  induction s with
  | nil => rfl
  | cons x s ih =>
    simp only [List.mem_cons, not_or] at h
    rw [cutFirst, if_neg (fun hx => h.1 hx.symm), ih h.2]

theorem cutFirst_some (c : Char) (a b : List Char) (h : c ∉ a) : cutFirst c (a ++ c :: b) = (a, some b) := by
  induction a with
  | nil => simp [cutFirst]
  | cons x s ih =>
    simp only [List.mem_cons, not_or] at h
    rw [List.cons_append, cutFirst, if_neg (fun hx => h.1 hx.symm), ih h.2]

/-- What a cut says about the text. -/
theorem cutFirst_spec (c : Char) (s : List Char) :
    c ∉ (cutFirst c s).1 ∧
    (((cutFirst c s).2 = none ∧ s = (cutFirst c s).1) ∨ ∃ b, (cutFirst c s).2 = some b ∧ s = (cutFirst c s).1 ++ c :: b) := by
  induction s with
  | nil => simp [cutFirst]
  | cons x s ih =>
    rw [cutFirst]
    split
    · next h => subst h; simp
    · next h =>
      obtain ⟨i1, i2⟩ := ih
      refine ⟨by simp only [List.mem_cons, not_or]; exact ⟨fun hx => h hx.symm, i1⟩, ?_⟩
      rcases i2 with ⟨i2, i3⟩ | ⟨b, i2, i3⟩
      · exact Or.inl ⟨i2, by simp only; rw [← i3]⟩
      · exact Or.inr ⟨b, i2, by simp only [List.cons_append]; rw [← i3]⟩

theorem cutLast_none (c : Char) (s : List Char) (h : c ∉ s) : cutLast c s = none := by
  induction s with
  | nil => rfl
  | cons x s ih =>
    simp only [List.mem_cons, not_or] at h
    rw [cutLast, ih h.2]
    simp only
    rw [if_neg (fun hx => h.1 hx.symm)]

theorem cutLast_some (c : Char) (a b : List Char) (h : c ∉ b) : cutLast c (a ++ c :: b) = some (a, b) := by
  induction a with
  | nil => rw [List.nil_append, cutLast, cutLast_none c b h]; simp
  | cons x s ih => rw [List.cons_append, cutLast, ih]

theorem cutLast_spec (c : Char) (s : List Char) :
    (cutLast c s = none ∧ c ∉ s) ∨ ∃ a b, cutLast c s = some (a, b) ∧ s = a ++ c :: b ∧ c ∉ b := by
  induction s with
  | nil => simp [cutLast]
  | cons x s ih =>
    rw [cutLast]
    rcases ih with ⟨h1, h2⟩ | ⟨a, b, h1, h2, h3⟩
    · rw [h1]
      by_cases hx : x = c
      · subst hx; exact Or.inr ⟨[], s, by simp, rfl, h2⟩
      · exact Or.inl ⟨by simp [hx], by simp only [List.mem_cons, not_or]; exact ⟨fun h => hx h.symm, h2⟩⟩
    · rw [h1]; exact Or.inr ⟨x :: a, b, rfl, by rw [h2]; rfl, h3⟩

/-! ## Escapes -/

/-- A character which may stand in a host. -/
def HostOk (c : Char) : Prop := 0x80 ≤ c.toNat ∨ hostAscii c = true

theorem unescape_cons (m : Mode) (c : Char) (s : List Char) (hc : c ≠ '%') : unescape m (c :: s) =
    if (m = .host ∨ m = .zone) ∧ c.toNat < 0x80 ∧ hostAscii c = false then none else (unescape m s).map (c :: ·) := by
  match s with
  | [] =>
    have : unescape m [] = some [] := by rw [unescape]
    rw [this, unescape, if_neg hc, this]; simp
  | [a] => rw [unescape] <;> simp [hc]
  | a :: b :: s => rw [unescape, if_neg hc]

theorem unescape_plain (m : Mode) (s : List Char) (h : '%' ∉ s) (hm : m = .host ∨ m = .zone → ∀ x ∈ s, HostOk x) :
    unescape m s = some s := by
  induction s with
  | nil => rw [unescape]
  | cons x s ih =>
    simp only [List.mem_cons, not_or] at h
    rw [unescape_cons m x s (fun hx => h.1 hx.symm), if_neg, ih h.2 (fun a y hy => hm a y (by simp [hy]))]
    · rfl
    · rintro ⟨h1, h2, h3⟩
      rcases hm h1 x (by simp) with h4 | h4
      · omega
      · rw [h3] at h4; cases h4

theorem unescape_inv (m : Mode) (s t : List Char) (h : '%' ∉ s) (hu : unescape m s = some t) :
    t = s ∧ (m = .host → ∀ x ∈ s, HostOk x) := by
  induction s generalizing t with
  | nil => rw [unescape] at hu; cases hu; simp
  | cons x s ih =>
    simp only [List.mem_cons, not_or] at h
    rw [unescape_cons m x s (fun hx => h.1 hx.symm)] at hu
    split at hu
    · cases hu
    · next hc =>
      cases hs : unescape m s with
      | none => rw [hs] at hu; cases hu
      | some t' =>
        rw [hs] at hu; cases hu
        obtain ⟨h1, h2⟩ := ih t' h.2 hs
        refine ⟨by rw [h1], fun hm y hy => ?_⟩
        rcases List.mem_cons.1 hy with hy | hy
        · subst hy
          by_cases h3 : 0x80 ≤ y.toNat
          · exact Or.inl h3
          · right
            cases h4 : hostAscii y with
            | true => rfl
            | false => exact absurd ⟨Or.inl hm, by omega, h4⟩ hc
        · exact h2 hm y hy

theorem zoneAt_none (s : List Char) (h : '%' ∉ s) : zoneAt s = none := by
  induction s with
  | nil => rfl
  | cons x s ih =>
    simp only [List.mem_cons, not_or] at h
    rw [zoneAt, ih h.2, if_neg]
    · rfl
    · simp [List.isPrefixOf]; intro hx; exact absurd hx h.1

/-! ## Schemes -/

theorem scanScheme_spec (a b : List Char) (ha : ∀ x ∈ a, schemeChar x = true) : scanScheme (a ++ ':' :: b) = some (a, b) := by
  induction a with
  | nil => rw [List.nil_append, scanScheme, if_neg (by decide), if_pos rfl]
  | cons x a ih =>
    rw [List.cons_append, scanScheme, if_pos (ha x (by simp)), ih (fun y hy => ha y (by simp [hy]))]; rfl

theorem scanScheme_none (a b : List Char) (ha : ':' ∉ a) (hb : ∀ x, b.head? = some x → x = '/' ∨ x = '?') : scanScheme (a ++ b) = none := by
  induction a with
  | nil =>
    cases b with
    | nil => rfl
    | cons x b =>
      have := hb x rfl
      rcases this with h | h <;> subst h <;> rw [List.nil_append, scanScheme, if_neg (by decide), if_neg (by decide)]
  | cons x a ih =>
    simp only [List.mem_cons, not_or] at ha
    rw [List.cons_append, scanScheme, ih ha.2]
    split
    · rfl
    · rw [if_neg (fun h => ha.1 h.symm)]

theorem getScheme_none (a b : List Char) (ha : ':' ∉ a) (hb : ∀ x, b.head? = some x → x = '/' ∨ x = '?') :
    getScheme (a ++ b) = some ([], a ++ b) := by
  cases a with
  | nil =>
    cases b with
    | nil => rfl
    | cons x b =>
      have := hb x rfl
      rcases this with h | h <;> subst h <;> rw [List.nil_append, getScheme, if_neg (by decide), if_neg (by decide)]
  | cons x a =>
    simp only [List.mem_cons, not_or] at ha
    rw [List.cons_append, getScheme, scanScheme_none a b ha.2 hb, if_neg (fun h => ha.1 h.symm)]
    split <;> rfl

theorem scanScheme_inv (s a b : List Char) (h : scanScheme s = some (a, b)) : s = a ++ ':' :: b ∧ ∀ x ∈ a, schemeChar x = true := by
  induction s generalizing a b with
  | nil => cases h
  | cons x s ih =>
    rw [scanScheme] at h
    split at h
    · next hx =>
      cases hs : scanScheme s with
      | none => rw [hs] at h; cases h
      | some p =>
        rw [hs] at h; cases h
        obtain ⟨h1, h2⟩ := ih p.1 p.2 hs
        refine ⟨by rw [List.cons_append, ← h1], fun y hy => ?_⟩
        rcases List.mem_cons.1 hy with hy | hy
        · rw [hy]; exact hx
        · exact h2 y hy
    · split at h
      · next hx => cases h; subst hx; exact ⟨rfl, by simp⟩
      · cases h

theorem getScheme_inv (s a b : List Char) (h : getScheme s = some (a, b)) :
    (a = [] ∧ b = s) ∨ (s = a ++ ':' :: b ∧ ∃ x r, a = x :: r ∧ x.isAlpha = true ∧ ∀ y ∈ r, schemeChar y = true) := by
  cases s with
  | nil => rw [getScheme] at h; cases h; simp
  | cons x s =>
    rw [getScheme] at h
    split at h
    · cases h
    · split at h
      · next hx =>
        cases hs : scanScheme s with
        | none => rw [hs] at h; cases h; exact Or.inl ⟨rfl, rfl⟩
        | some p =>
          rw [hs] at h; cases h
          obtain ⟨h1, h2⟩ := scanScheme_inv s _ _ hs
          exact Or.inr ⟨by rw [List.cons_append, ← h1], x, p.1, rfl, hx, h2⟩
      · cases h; exact Or.inl ⟨rfl, rfl⟩

theorem char_cases (p : Char → Bool) (h : ∀ n : Fin 128, p (Char.ofNat n) = true) (c : Char) (hc : c.toNat < 128) : p c = true := by
  have := h ⟨c.toNat, hc⟩
  rwa [Char.ofNat_toNat] at this

theorem alnum_lt (c : Char) (h : c.isAlphanum = true) : c.toNat < 128 := by
  have hv : c.toNat = c.val.toNat := rfl
  simp only [Char.isAlphanum, Char.isAlpha, Char.isUpper, Char.isLower, Char.isDigit, Bool.or_eq_true, Bool.and_eq_true,
    decide_eq_true_eq, UInt32.le_iff_toNat_le, ge_iff_le] at h
  have e1 : ('Z'.val).toNat = 90 := rfl
  have e2 : ('z'.val).toNat = 122 := rfl
  have e3 : ('9'.val).toNat = 57 := rfl
  simp only [e1, e2, e3] at h
  omega

theorem schemeChar_lt (c : Char) (h : schemeChar c = true) : c.toNat < 128 := by
  simp only [schemeChar, Bool.or_eq_true, beq_iff_eq] at h
  rcases h with ((h | h) | h) | h
  · exact alnum_lt c h
  all_goals subst h; decide

theorem lower_alpha (c : Char) (h : c.isAlpha = true) : (lower c).isLower = true := by
  have := char_cases (fun c => !c.isAlpha || (lower c).isLower) (by decide +kernel) c (alnum_lt c (by simp [Char.isAlphanum, h]))
  simpa [h] using this

theorem lower_scheme (c : Char) (h : schemeChar c = true) :
    (lower c).isLower = true ∨ (lower c).isDigit = true ∨ lower c ∈ ['+', '-', '.'] := by
  have := char_cases (fun c => !schemeChar c || ((lower c).isLower || (lower c).isDigit || ['+', '-', '.'].contains (lower c)))
    (by decide +kernel) c (schemeChar_lt c h)
  simp only [h, Bool.not_true, Bool.false_or, Bool.or_eq_true, List.contains_iff_mem] at this
  rcases this with (h | h) | h
  · exact Or.inl h
  · exact Or.inr (Or.inl h)
  · exact Or.inr (Or.inr h)

theorem clean_scheme (c : Char) (h : c.isLower = true ∨ c.isDigit = true ∨ c ∈ ['+', '-', '.']) : schemeChar c = true ∧ lower c = c := by
  have hs : schemeChar c = true := by
    rcases h with h | h | h
    · simp [schemeChar, Char.isAlphanum, Char.isAlpha, h]
    · simp [schemeChar, Char.isAlphanum, h]
    · simp only [List.mem_cons, List.not_mem_nil, or_false] at h
      rcases h with h | h | h <;> subst h <;> decide
  have := char_cases (fun c => !(c.isLower || c.isDigit || ['+', '-', '.'].contains c) || lower c == c)
    (by decide +kernel) c (schemeChar_lt c hs)
  have hb : (c.isLower || c.isDigit || ['+', '-', '.'].contains c) = true := by
    simp only [Bool.or_eq_true, List.contains_iff_mem]
    rcases h with h | h | h
    · exact Or.inl (Or.inl h)
    · exact Or.inl (Or.inr h)
    · exact Or.inr h
  rw [hb] at this
  exact ⟨hs, by simpa using this⟩

theorem hostOk_iff (x : Char) :
    HostOk x ↔ 0x80 ≤ x.toNat ∨ x.isAlphanum = true ∨ x ∈ "-_.~!$&'()*+,;=:[]<>\"".toList := by
  simp only [HostOk, hostAscii, Bool.or_eq_true, List.contains_iff_mem]

theorem hostOk_ne {x c : Char} (h : HostOk x) (hc : c.toNat < 0x80) (hn : hostAscii c = false) : x ≠ c := by
  intro he; subst he
  rcases h with h | h
  · omega
  · rw [hn] at h; cases h

/-! ## Hosts -/

theorem validPort_iff (d : List Char) : validOptionalPort d = true ↔ PortText d := by
  cases d with
  | nil => simp [validOptionalPort, PortText]
  | cons x s =>
    simp only [validOptionalPort, Bool.and_eq_true, beq_iff_eq, List.all_eq_true, PortText, List.cons_ne_nil, false_or, List.cons.injEq]
    constructor
    · rintro ⟨h1, h2⟩; exact ⟨s, ⟨h1, rfl⟩, h2⟩
    · rintro ⟨ds, ⟨h1, h2⟩, h3⟩; subst h2; exact ⟨h1, h3⟩

theorem digit_ne (x c : Char) (h : x.isDigit = true) (hc : c.isDigit = false) : x ≠ c := by
  intro he; subst he; rw [hc] at h; cases h

theorem port_notMem (d : List Char) (h : PortText d) (c : Char) (hc : c.isDigit = false) (hn : c ≠ ':') : c ∉ d := by
  rcases h with h | ⟨ds, h, h2⟩
  · subst h; simp
  · subst h
    simp only [List.mem_cons, not_or]
    exact ⟨hn, fun hx => digit_ne c c (h2 c hx) hc rfl⟩

theorem parseHost_clean (t : List Char) (ht : HostText t) (hc : ∀ x ∈ t, HostOk x) : parseHost t = some t := by
  have hp : '%' ∉ t := fun h => hostOk_ne (hc _ h) (by decide) (by decide) rfl
  have hu : unescape .host t = some t := unescape_plain .host t hp (fun _ => hc)
  obtain ⟨a, d, rfl, hd, h | h⟩ := ht
  · obtain ⟨h1, h2⟩ := h
    obtain ⟨a', rfl⟩ : ∃ a', a = a' ++ [']'] := by
      rw [List.getLast?_eq_some_iff] at h2; exact h2
    have hh : (a' ++ [']'] ++ d).head? = some '[' := by
      cases a' with
      | nil => simp at h1
      | cons x a' => simpa using h1
    have hcut : cutLast ']' (a' ++ [']'] ++ d) = some (a', d) := by
      rw [List.append_assoc]; exact cutLast_some ']' a' d (port_notMem d hd _ (by decide) (by decide))
    rw [parseHost, if_pos hh, hcut]
    simp only
    rw [if_neg (by rw [(validPort_iff d).2 hd]; simp), zoneAt_none a' (fun hx => hp (by simp [hx]))]
    exact hu
  · obtain ⟨h1, h2⟩ := h
    have hh : (a ++ d).head? ≠ some '[' := by
      cases a with
      | nil =>
        rcases hd with hd | ⟨ds, hd, _⟩ <;> subst hd <;> simp
      | cons x a => simpa using h1
    rw [parseHost, if_neg hh]
    rcases hd with hd | ⟨ds, hd, hds⟩
    · subst hd
      rw [cutLast_none ':' (a ++ []) (by simpa using h2 rfl)]
      exact hu
    · subst hd
      rw [cutLast_some ':' a ds (fun hx => digit_ne _ _ (hds _ hx) (by decide) rfl)]
      simp only
      rw [if_neg (by rw [(validPort_iff _).2 (Or.inr ⟨ds, rfl, hds⟩)]; simp)]
      exact hu

theorem parseHost_inv (t h : List Char) (hp : '%' ∉ t) (hh : parseHost t = some h) : h = t ∧ HostText t ∧ ∀ x ∈ t, HostOk x := by
  rw [parseHost] at hh
  split at hh
  · next hb =>
    rcases cutLast_spec ']' t with ⟨h1, _⟩ | ⟨a, d, h1, h2, h3⟩
    · rw [h1] at hh; cases hh
    · rw [h1] at hh
      simp only at hh
      split at hh
      · cases hh
      · next hv =>
        rw [zoneAt_none a (fun hx => hp (by rw [h2]; simp [hx]))] at hh
        obtain ⟨h4, h5⟩ := unescape_inv .host t h hp hh
        refine ⟨h4, ⟨a ++ [']'], d, by rw [h2]; simp, (validPort_iff d).1 (by simpa using hv), Or.inl ⟨?_, by simp⟩⟩, h5 rfl⟩
        rw [h2] at hb
        cases a with
        | nil => simp at hb
        | cons x a => simpa using hb
  · next hb =>
    rcases cutLast_spec ':' t with ⟨h1, h2⟩ | ⟨a, d, h1, h2, h3⟩
    · rw [h1] at hh
      obtain ⟨h4, h5⟩ := unescape_inv .host t h hp hh
      exact ⟨h4, ⟨t, [], by simp, Or.inl rfl, Or.inr ⟨hb, fun _ => h2⟩⟩, h5 rfl⟩
    · rw [h1] at hh
      simp only at hh
      split at hh
      · cases hh
      · next hv =>
        obtain ⟨h4, h5⟩ := unescape_inv .host t h hp hh
        refine ⟨h4, ⟨a, ':' :: d, h2, (validPort_iff _).1 (by simpa using hv), Or.inr ⟨?_, by simp⟩⟩, h5 rfl⟩
        rw [h2] at hb
        cases a with
        | nil => simp
        | cons x a => simpa using hb

/-! ## Authorities -/

theorem validUser_iff (s : List Char) (h : '%' ∉ s) :
    validUserinfo s = true ↔ ∀ x ∈ s, x.isAlphanum = true ∨ x ∈ "-._:~!$&'()*+,;=@".toList := by
  simp only [validUserinfo, List.all_eq_true, Bool.or_eq_true, List.contains_iff_mem]
  constructor
  · intro hv x hx
    rcases hv x hx with h1 | h1
    · exact Or.inl h1
    · have : x ≠ '%' := fun he => h (he ▸ hx)
      right
      simp at h1 ⊢
      grind
  · intro hv x hx
    rcases hv x hx with h1 | h1
    · exact Or.inl h1
    · right
      simp at h1 ⊢
      grind

/-- The text of the authority as NewURIFromComponents writes it. -/
def authText (c : Comps) : List Char :=
  (if c.username ≠ [] ∨ c.password ≠ [] then c.username ++ (if c.password ≠ [] then ':' :: c.password else []) ++ ['@'] else []) ++ hostPort c

theorem parseAuthority_clean (c : Comps) (h : Clean c) : parseAuthority (authText c) = some (c.username, c.password, hostPort c) := by
  have hk : ∀ x ∈ hostPort c, HostOk x := fun x hx => (hostOk_iff x).2 (h.host x hx)
  have hat : '@' ∉ hostPort c := fun hx => hostOk_ne (hk _ hx) (by decide) (by decide) rfl
  have hh := parseHost_clean _ h.hostText hk
  have hup : '%' ∉ c.username := fun hx => by have := h.username _ hx; revert this; decide
  have hpp : '%' ∉ c.password := fun hx => by have := h.password _ hx; revert this; decide
  have huc : ':' ∉ c.username := fun hx => by have := h.username _ hx; revert this; decide
  have hvu : ∀ x ∈ c.username, x.isAlphanum = true ∨ x ∈ "-._:~!$&'()*+,;=@".toList := fun x hx => by
    rcases h.username x hx with h1 | h1
    · exact Or.inl h1
    · right; simp at h1 ⊢; grind
  rw [authText, parseAuthority]
  by_cases hu : c.username ≠ [] ∨ c.password ≠ []
  · rw [if_pos hu]
    rw [show c.username ++ (if c.password ≠ [] then ':' :: c.password else []) ++ ['@'] ++ hostPort c =
      (c.username ++ (if c.password ≠ [] then ':' :: c.password else [])) ++ '@' :: hostPort c by simp, cutLast_some '@' _ _ hat]
    simp only [hh]
    by_cases hp : c.password = []
    · simp only [hp, ne_eq, not_true_eq_false, if_false, List.append_nil]
      rw [(validUser_iff _ hup).2 hvu, cutFirst_none ':' _ huc, if_neg (by simp)]
      simp only
      rw [unescape_plain _ _ hup (by simp)]; rfl
    · rw [if_pos hp, (validUser_iff _ (by simp [hup, hpp])).2, cutFirst_some ':' _ _ huc, if_neg (by simp)]
      · simp only
        rw [unescape_plain _ _ hup (by simp), unescape_plain _ _ hpp (by simp)]
      · intro x hx
        simp only [List.mem_append, List.mem_cons] at hx
        rcases hx with hx | hx | hx
        · exact hvu x hx
        · subst hx; right; decide
        · exact h.password x hx
  · rw [if_neg hu, List.nil_append, cutLast_none '@' _ hat]
    simp only [hh, Option.map_some]
    have : c.username = [] ∧ c.password = [] := by simpa using hu
    rw [this.1, this.2]

theorem parseAuthority_inv (t u p h : List Char) (hp : '%' ∉ t) (hh : parseAuthority t = some (u, p, h)) :
    (∀ x ∈ u, x.isAlphanum = true ∨ x ∈ "-._~!$&'()*+,;=@".toList) ∧
    (∀ x ∈ p, x.isAlphanum = true ∨ x ∈ "-._:~!$&'()*+,;=@".toList) ∧ HostText h ∧ ∀ x ∈ h, HostOk x := by
  rw [parseAuthority] at hh
  rcases cutLast_spec '@' t with ⟨h1, h2⟩ | ⟨a, d, h1, h2, h3⟩
  · rw [h1] at hh
    simp only at hh
    cases hk : parseHost t with
    | none => rw [hk] at hh; cases hh
    | some h' =>
      rw [hk] at hh; cases hh
      obtain ⟨e, i⟩ := parseHost_inv t _ hp hk
      rw [e]
      exact ⟨by simp, by simp, i⟩
  · rw [h1] at hh
    simp only at hh
    have hpa : '%' ∉ a := fun hx => hp (by rw [h2]; simp [hx])
    have hpd : '%' ∉ d := fun hx => hp (by rw [h2]; simp [hx])
    cases hk : parseHost d with
    | none => rw [hk] at hh; cases hh
    | some h' =>
      rw [hk] at hh
      simp only at hh
      obtain ⟨e, i⟩ := parseHost_inv d _ hpd hk
      split at hh
      · cases hh
      · next hv =>
        have hv' := (validUser_iff a hpa).1 (by simpa using hv)
        have key : ∀ x ∈ a, x ≠ ':' → x.isAlphanum = true ∨ x ∈ "-._~!$&'()*+,;=@".toList := fun x hx hn => by
          rcases hv' x hx with h4 | h4
          · exact Or.inl h4
          · right; simp at h4 ⊢; grind
        obtain ⟨c1, c2⟩ := cutFirst_spec ':' a
        rcases c2 with ⟨c2, c3⟩ | ⟨b, c2, c3⟩
        · rw [show cutFirst ':' a = ((cutFirst ':' a).1, none) by rw [← c2]] at hh
          simp only at hh
          rw [unescape_plain _ _ hpa (by simp)] at hh
          cases hh
          rw [← c3] at c1
          rw [e]
          exact ⟨fun x hx => key x hx (fun he => c1 (he ▸ hx)), by simp, i⟩
        · rw [show cutFirst ':' a = ((cutFirst ':' a).1, some b) by rw [← c2]] at hh
          simp only at hh
          rw [unescape_plain _ _ (fun hx => hpa (by rw [c3]; simp [hx])) (by simp),
            unescape_plain _ _ (fun hx => hpa (by rw [c3]; simp [hx])) (by simp)] at hh
          cases hh
          rw [e]
          refine ⟨fun x hx => key x (by rw [c3]; simp [hx]) (fun he => c1 (he ▸ hx)), fun x hx => hv' x (by rw [c3]; simp [hx]), i⟩

/-! ## Texts -/

theorem rawOf_eq (c : Comps) : rawOf c =
    ((if c.scheme ≠ [] then c.scheme ++ [':'] else []) ++ ((if noAuthority c then [] else '/' :: '/' :: authText c) ++ c.path ++
      (if c.query ≠ [] then '?' :: c.query else []))) ++ (if c.fragment ≠ [] then '#' :: c.fragment else []) := by
  have h1 : (c.username ≠ [] ∨ c.password ≠ [] ∨ c.host ≠ [] ∨ c.port ≠ []) ↔ ¬ noAuthority c := by
    simp only [noAuthority]; grind
  rw [rawOf]
  by_cases hn : noAuthority c
  · have h2 : ¬ (c.username ≠ [] ∨ c.password ≠ [] ∨ c.host ≠ [] ∨ c.port ≠ []) := fun h => h1.1 h hn
    simp only [if_neg h2, if_pos hn]; simp
  · simp only [if_pos (h1.2 hn), if_neg hn]
    simp only [authText, hostPort]
    by_cases hp : c.port = [] <;> simp [hp]

theorem cut_tail (x : Char) (a b : List Char) (h : x ∉ a) : cutFirst x (a ++ if b ≠ [] then x :: b else []) = (a, if b ≠ [] then some b else none) := by
  by_cases hb : b = []
  · simp only [hb, ne_eq, not_true_eq_false, if_false, List.append_nil]; exact cutFirst_none x a h
  · simp only [ne_eq, hb, not_false_eq_true, if_true]; exact cutFirst_some x a b h

theorem getD_tail (b : List Char) : (if b ≠ [] then some b else none).getD [] = b := by
  by_cases hb : b = [] <;> simp [hb]

/-- The lone star needs no case of its own. -/
theorem parseBody_eq (s : List Char) : parseBody s =
    if s.any ctl then none
    else match getScheme s with
      | none => none
      | some (scheme, rest) => parseRest (scheme.map lower) (cutFirst '?' rest).1 ((cutFirst '?' rest).2.getD []) := by
  rw [parseBody]
  split
  · rfl
  · split
    · next h => subst h; rfl
    · rfl

theorem ctl_false (x : Char) (h : 0x20 ≤ x.toNat ∧ x.toNat ≠ 0x7f) : ctl x = false := by
  simp only [ctl, Bool.or_eq_false_iff, decide_eq_false_iff_not, beq_eq_false_iff_ne]
  omega

theorem alnum_ge (c : Char) (h : c.isAlphanum = true) : 0x20 ≤ c.toNat ∧ c.toNat ≠ 0x7f := by
  have := char_cases (fun c => !c.isAlphanum || (decide (0x20 ≤ c.toNat) && decide (c.toNat ≠ 0x7f))) (by decide +kernel) c (alnum_lt c h)
  simpa [h] using this

theorem user_char (x : Char) (h : x.isAlphanum = true ∨ x ∈ "-._:~!$&'()*+,;=@".toList) :
    x ∉ ['/', '?', '#', '%'] ∧ ctl x = false := by
  rcases h with h | h
  · refine ⟨fun hm => ?_, ctl_false x (alnum_ge x h)⟩
    simp only [List.mem_cons, List.not_mem_nil, or_false] at hm
    rcases hm with hm | hm | hm | hm <;> subst hm <;> exact absurd h (by decide)
  · have : ∀ x ∈ "-._:~!$&'()*+,;=@".toList, x ∉ ['/', '?', '#', '%'] ∧ ctl x = false := by decide +kernel
    exact this x h

theorem host_char (x : Char) (h : HostOk x) : x ∉ ['/', '?', '#', '%'] ∧ ctl x = false := by
  refine ⟨fun hm => ?_, ?_⟩
  · simp only [List.mem_cons, List.not_mem_nil, or_false] at hm
    rcases hm with hm | hm | hm | hm <;> exact hostOk_ne h (by subst hm; decide) (by subst hm; decide) rfl
  · rcases h with h | h
    · exact ctl_false x (by omega)
    · simp only [hostAscii, Bool.or_eq_true, List.contains_iff_mem] at h
      rcases h with h | h
      · exact ctl_false x (alnum_ge x h)
      · have : ∀ x ∈ "-_.~!$&'()*+,;=:[]<>\"".toList, ctl x = false := by decide +kernel
        exact this x h

theorem authText_char (c : Comps) (h : Clean c) (x : Char) (hx : x ∈ authText c) : x ∉ ['/', '?', '#', '%'] ∧ ctl x = false := by
  rw [authText, List.mem_append] at hx
  rcases hx with hx | hx
  · split at hx
    · simp only [List.mem_append, List.mem_cons, List.not_mem_nil, or_false] at hx
      rcases hx with (hx | hx) | hx
      · apply user_char
        rcases h.username x hx with h1 | h1
        · exact Or.inl h1
        · right; simp at h1 ⊢; grind
      · split at hx
        · rcases List.mem_cons.1 hx with hx | hx
          · subst hx; decide
          · exact user_char x (h.password x hx)
        · cases hx
      · subst hx; decide
    · cases hx
  · exact host_char x ((hostOk_iff x).2 (h.host x hx))

theorem takeWhile_cut (a p : List Char) (ha : ∀ x ∈ a, x ≠ '/') (hp : p = [] ∨ p.head? = some '/') :
    (a ++ p).takeWhile (· ≠ '/') = a ∧ (a ++ p).dropWhile (· ≠ '/') = p := by
  induction a with
  | nil =>
    rcases hp with hp | hp
    · subst hp; simp
    · cases p with
      | nil => cases hp
      | cons x p => simp at hp; subst hp; simp
  | cons x a ih =>
    have := ih (fun y hy => ha y (by simp [hy]))
    have hx := ha x (by simp)
    simp only [List.cons_append, List.takeWhile_cons, List.dropWhile_cons]
    simpa [hx] using this

theorem cutFirst_slash (s : List Char) : (cutFirst '/' s).1 = s.takeWhile (· ≠ '/') := by
  induction s with
  | nil => rfl
  | cons x s ih =>
    rw [cutFirst, List.takeWhile_cons]
    by_cases h : x = '/' <;> simp [h, ih]

theorem parseRest_clean (c : Comps) (h : Clean c) :
    parseRest c.scheme ((if noAuthority c then [] else '/' :: '/' :: authText c) ++ c.path) c.query = some { c with fragment := [] } := by
  have hpp : '%' ∉ c.path := fun hx => by have := (h.path _ hx).1; revert this; decide
  by_cases hn : noAuthority c
  · have hcomps : ({ c with fragment := [] } : Comps) = ⟨c.scheme, [], [], [], [], c.path, c.query, []⟩ := by
      obtain ⟨h1, h2, h3, h4⟩ := hn
      simp [h1, h2, h3, h4]
    rw [if_pos hn, List.nil_append, parseRest, hcomps]
    by_cases hr : c.path.head? ≠ some '/' ∧ c.scheme ≠ []
    · rw [if_pos hr]
    · rw [if_neg hr, if_neg, if_neg, unescape_plain _ _ hpp (by simp)]; rfl
      · rintro ⟨h1, h2⟩
        have := h.noAuthority hn h1
        rcases h2 with h2 | h2
        · exact h2 this.1
        · exact h2 this.2
      · rintro ⟨h1, h2⟩
        rw [cutFirst_slash] at h2
        have hs : c.scheme = [] := by
          cases hsc : c.scheme with
          | nil => rfl
          | cons x s => exact absurd ⟨h1, by simp [hsc]⟩ hr
        exact h.noScheme hs hn h2
  · have hslash : ∀ x ∈ authText c, x ≠ '/' := fun x hx he => (authText_char c h x hx).1 (by simp [he])
    obtain ⟨t1, t2⟩ := takeWhile_cut (authText c) c.path hslash (h.afterAuthority hn)
    have hne : ¬ (c.scheme = [] ∧ (authText c ++ c.path).head? = some '/') := by
      rintro ⟨-, h2⟩
      cases ha : authText c with
      | nil =>
        apply hn
        simp only [authText, hostPort] at ha
        by_cases hu : c.username = [] ∧ c.password = []
        · by_cases hq : c.port = []
          · simp [hu.1, hu.2, hq] at ha; exact ⟨hu.1, hu.2, ha, hq⟩
          · simp [hu.1, hu.2, hq] at ha
        · rw [if_pos (by grind)] at ha; simp at ha
      | cons x a =>
        rw [ha] at h2
        simp at h2
        exact hslash x (by rw [ha]; simp) h2
    rw [if_neg hn, parseRest, if_neg (by simp), if_neg (by simp), if_pos]
    · simp only [List.cons_append, List.drop_succ_cons, List.drop_zero, t1, t2]
      rw [parseAuthority_clean c h]
      simp only
      rw [unescape_plain _ _ hpp (by simp)]
      have hcut : cutFirst ':' (hostPort c) = (c.host, if c.port ≠ [] then some c.port else none) := by
        have := cut_tail ':' c.host c.port h.noColon
        rw [hostPort]
        by_cases hq : c.port = [] <;> simp [hq] at this ⊢ <;> exact this
      rw [hcut]
      simp only [Option.map_some]
      rw [getD_tail]
    · refine ⟨by simp, ?_⟩
      by_cases hs : c.scheme = []
      · right
        intro he
        apply hne
        refine ⟨hs, ?_⟩
        simp only [List.cons_append, List.take_succ_cons, List.cons.injEq, true_and] at he
        cases hb : authText c ++ c.path with
        | nil => rw [hb] at he; cases he
        | cons x b => rw [hb] at he; simp at he; simp [he]
      · exact Or.inl hs

theorem netParse_rawOf (c : Comps) (h : Clean c) : netParse (rawOf c) = some c := by
  have hpath : ∀ x ∈ c.path, x ∉ ['?', '#', '%'] ∧ ctl x = false := fun x hx => ⟨(h.path x hx).1, ctl_false x (h.path x hx).2⟩
  have hauth : ∀ x ∈ (if noAuthority c then [] else '/' :: '/' :: authText c), x ∉ ['?', '#', '%'] ∧ ctl x = false := by
    intro x hx
    split at hx
    · cases hx
    · simp only [List.mem_cons] at hx
      rcases hx with hx | hx | hx
      · subst hx; decide
      · subst hx; decide
      · have := authText_char c h x hx
        exact ⟨by have := this.1; simp at this ⊢; grind, this.2⟩
  have hsch : ∀ x ∈ c.scheme, schemeChar x = true ∧ lower x = x := fun x hx => clean_scheme x (h.scheme.1 x hx)
  have hschar : ∀ x, schemeChar x = true → x ∉ ['?', '#', '%'] ∧ ctl x = false := by
    intro x hx
    have := char_cases (fun x => !schemeChar x || (!['?', '#', '%'].contains x && !ctl x)) (by decide +kernel) x (schemeChar_lt x hx)
    simpa [hx] using this
  have hrest : ∀ x ∈ (if noAuthority c then [] else '/' :: '/' :: authText c) ++ c.path ++ (if c.query ≠ [] then '?' :: c.query else []),
      x ≠ '#' ∧ ctl x = false := by
    intro x hx
    rw [List.mem_append, List.mem_append] at hx
    rcases hx with (hx | hx) | hx
    · have := hauth x hx; exact ⟨fun he => this.1 (by simp [he]), this.2⟩
    · have := hpath x hx; exact ⟨fun he => this.1 (by simp [he]), this.2⟩
    · split at hx
      · rcases List.mem_cons.1 hx with hx | hx
        · subst hx; decide
        · exact ⟨(h.query x hx).1, ctl_false x (h.query x hx).2⟩
      · cases hx
  have hbody : ∀ x ∈ ((if c.scheme ≠ [] then c.scheme ++ [':'] else []) ++ ((if noAuthority c then [] else '/' :: '/' :: authText c) ++ c.path ++
      (if c.query ≠ [] then '?' :: c.query else []))), x ≠ '#' ∧ ctl x = false := by
    intro x hx
    rw [List.mem_append] at hx
    rcases hx with hx | hx
    · split at hx
      · rw [List.mem_append] at hx
        rcases hx with hx | hx
        · have := hschar x (hsch x hx).1; exact ⟨fun he => this.1 (by simp [he]), this.2⟩
        · simp at hx; subst hx; decide
      · cases hx
    · exact hrest x hx
  have hq : '?' ∉ (if noAuthority c then [] else '/' :: '/' :: authText c) ++ c.path := by
    intro hx
    rcases List.mem_append.1 hx with hx | hx
    · exact (hauth _ hx).1 (by simp)
    · exact (hpath _ hx).1 (by simp)
  have hget : getScheme ((if c.scheme ≠ [] then c.scheme ++ [':'] else []) ++ ((if noAuthority c then [] else '/' :: '/' :: authText c) ++ c.path ++
      (if c.query ≠ [] then '?' :: c.query else []))) =
      some (c.scheme, (if noAuthority c then [] else '/' :: '/' :: authText c) ++ c.path ++ (if c.query ≠ [] then '?' :: c.query else [])) := by
    cases hs : c.scheme with
    | nil =>
      simp only [ne_eq, not_true_eq_false, if_false, List.nil_append]
      by_cases hn : noAuthority c
      · rw [if_pos hn, List.nil_append]
        have e : c.path = c.path.takeWhile (· ≠ '/') ++ c.path.dropWhile (· ≠ '/') := (List.takeWhile_append_dropWhile).symm
        rw [e, List.append_assoc]
        apply getScheme_none _ _ (h.noScheme hs hn)
        intro x hx
        cases hd : c.path.dropWhile (· ≠ '/') with
        | nil =>
          rw [hd] at hx
          split at hx
          · simp at hx; exact Or.inr hx.symm
          · cases hx
        | cons y d =>
          rw [hd] at hx
          simp at hx
          have hy : ∀ (l : List Char), l.dropWhile (· ≠ '/') = y :: d → y = '/' := by
            intro l
            induction l with
            | nil => simp
            | cons z l ih =>
              rw [List.dropWhile_cons]
              split
              · exact ih
              · next hz => intro he; cases he; simpa using hz
          left
          rw [← hx]; exact hy _ hd
      · rw [if_neg hn]
        exact getScheme_none [] _ (by simp) (by simp)
    | cons x s =>
      simp only [ne_eq, List.cons_ne_nil, not_false_eq_true, if_true, List.append_assoc, List.cons_append, List.nil_append]
      have hx : x.isLower = true := h.scheme.2 x (by rw [hs]; rfl)
      rw [getScheme, if_neg, if_pos (by simp [Char.isAlpha, hx]), scanScheme_spec]
      · intro y hy; exact (hsch y (by rw [hs]; simp [hy])).1
      · intro he; subst he; revert hx; decide
  have hlow : c.scheme.map lower = c.scheme := by
    rw [List.map_congr_left (g := id) (fun x hx => (hsch x hx).2), List.map_id]
  rw [netParse, rawOf_eq, cut_tail '#' _ _ (fun hx => (hbody _ hx).1 rfl), parseBody_eq, if_neg, hget]
  · simp only
    rw [cut_tail '?' _ _ hq, getD_tail, getD_tail, hlow, parseRest_clean c h]
    simp only
    rw [unescape_plain _ _ h.fragment (by simp)]
    rfl
  · rw [List.any_eq_true]
    rintro ⟨x, hx, hc⟩
    rw [(hbody x hx).2] at hc; cases hc

/-! ## What was read -/

theorem cutFirst_mem (c : Char) (s : List Char) (x : Char) :
    (x ∈ (cutFirst c s).1 → x ∈ s) ∧ (x ∈ (cutFirst c s).2.getD [] → x ∈ s) := by
  obtain ⟨_, h | ⟨b, h1, h2⟩⟩ := cutFirst_spec c s
  · rw [h.1]; exact ⟨fun hx => by rw [h.2]; exact hx, by simp⟩
  · rw [h1]
    refine ⟨fun hx => by rw [h2]; simp [hx], fun hx => ?_⟩
    rw [h2]; simp at hx; simp [hx]

theorem hostPort_read (c : Comps) (t : List Char) (h1 : c.host = (cutFirst ':' t).1) (h2 : c.port = (cutFirst ':' t).2.getD [])
    (ht : HostText t) (hk : ∀ x ∈ t, HostOk x) : HostText (hostPort c) ∧ (∀ x ∈ hostPort c, HostOk x) ∧ ':' ∉ c.host := by
  obtain ⟨hc, h | ⟨b, h3, h4⟩⟩ := cutFirst_spec ':' t
  · have : hostPort c = t := by rw [hostPort, h2, h.1, h1, ← h.2]; simp
    rw [this]
    exact ⟨ht, hk, by rw [h1]; exact hc⟩
  · by_cases hb : b = []
    · subst hb
      have e : hostPort c = (cutFirst ':' t).1 := by rw [hostPort, h2, h3, h1]; simp
      rw [e]
      refine ⟨?_, fun x hx => hk x (by rw [h4]; simp [hx]), by rw [h1]; exact hc⟩
      obtain ⟨a, d, h5, h6, h7⟩ := ht
      refine ⟨(cutFirst ':' t).1, [], by simp, Or.inl rfl, ?_⟩
      rcases h7 with ⟨h7, h8⟩ | ⟨h7, h8⟩
      · left
        have hd : d = [':'] := by
          rcases h6 with h6 | ⟨ds, h6, h9⟩
          · subst h6
            rw [List.append_nil] at h5
            rw [← h5, h4] at h8
            simp at h8
          · subst h6
            have : ds = [] := by
              cases ds with
              | nil => rfl
              | cons z zs =>
                have hl := congrArg List.getLast? (h5.symm.trans h4)
                simp only [List.getLast?_append, List.getLast?_singleton, Option.some_or] at hl
                rw [List.getLast?_cons_cons] at hl
                have hm : ':' ∈ z :: zs := by
                  cases hz : (z :: zs).getLast? with
                  | none => simp at hz
                  | some w => rw [hz] at hl; simp at hl; subst hl; exact List.mem_of_getLast? hz
                exact absurd (h9 _ hm) (by decide)
            rw [this]
        subst hd
        have : a = (cutFirst ':' t).1 := List.append_cancel_right (h5.symm.trans h4)
        rw [← this]; exact ⟨h7, h8⟩
      · right
        refine ⟨?_, fun _ => hc⟩
        intro hh
        have hx : t.head? = some '[' := by
          rw [h4]; cases hcc : (cutFirst ':' t).1 with
          | nil => rw [hcc] at hh; cases hh
          | cons y ys => rw [hcc] at hh; simpa using hh
        rw [h5] at hx
        cases a with
        | nil =>
          rcases h6 with h6 | ⟨ds, h6, _⟩
          · subst h6; cases hx
          · subst h6; simp at hx
        | cons y ys => exact h7 (by simpa using hx)
    · have : hostPort c = t := by
        rw [hostPort, h2, h3, h1]; simp only [Option.getD_some, if_neg hb]; exact h4.symm
      rw [this]
      exact ⟨ht, hk, by rw [h1]; exact hc⟩

theorem hostText_nil : HostText [] := ⟨[], [], rfl, Or.inl rfl, Or.inr ⟨by simp, by simp⟩⟩

/-- The conditions on what is behind the scheme and before the fragment. -/
theorem parseRest_inv (scheme rest query : List Char) (c : Comps) (hp : '%' ∉ rest)
    (hr : ∀ x ∈ rest, x ∉ ['?', '#'] ∧ 0x20 ≤ x.toNat ∧ x.toNat ≠ 0x7f)
    (hs : (∀ x ∈ scheme, x.isLower = true ∨ x.isDigit = true ∨ x ∈ ['+', '-', '.']) ∧ ∀ x, scheme.head? = some x → x.isLower = true)
    (hq : ∀ x ∈ query, x ≠ '#' ∧ 0x20 ≤ x.toNat ∧ x.toNat ≠ 0x7f)
    (h : parseRest scheme rest query = some c)
    (hn : noAuthority c → c.path.take 2 = ['/', '/'] → c.scheme = [] ∧ c.path.take 3 = ['/', '/', '/']) : Clean c := by
  have hpr : ∀ x ∈ rest, x ∉ ['?', '#', '%'] ∧ 0x20 ≤ x.toNat ∧ x.toNat ≠ 0x7f := by
    intro x hx
    refine ⟨?_, (hr x hx).2⟩
    have h1 := (hr x hx).1
    have h2 : x ≠ '%' := fun he => hp (he ▸ hx)
    simp at h1 ⊢; grind
  have plain : ∀ path : List Char, path = rest → (scheme = [] → ':' ∉ path.takeWhile (· ≠ '/')) →
      c = ⟨scheme, [], [], [], [], path, query, []⟩ → Clean c := by
    intro path hpath hns hc
    subst hc; subst hpath
    exact ⟨hs, by simp, by simp, by simp [hostPort], by simpa [hostPort] using hostText_nil, by simp, hpr, hq, by simp,
      fun ha => absurd ⟨rfl, rfl, rfl, rfl⟩ ha, hn, fun hs _ => hns hs⟩
  rw [parseRest] at h
  split at h
  · next h1 => exact plain rest rfl (fun hs => absurd hs h1.2) (Option.some.inj h).symm
  · next h1 =>
    split at h
    · cases h
    · next h2 =>
      split at h
      · next h3 =>
        have hpa : '%' ∉ (rest.drop 2).takeWhile (· ≠ '/') := fun hx => hp (List.mem_of_mem_drop ((List.takeWhile_sublist _).subset hx))
        have hpd : '%' ∉ (rest.drop 2).dropWhile (· ≠ '/') := fun hx => hp (List.mem_of_mem_drop ((List.dropWhile_sublist _).subset hx))
        cases ha : parseAuthority ((rest.drop 2).takeWhile (· ≠ '/')) with
        | none => rw [ha] at h; cases h
        | some r =>
          obtain ⟨u, p, t⟩ := r
          rw [ha] at h
          simp only at h
          rw [unescape_plain _ _ hpd (by simp)] at h
          obtain ⟨a1, a2, a3, a4⟩ := parseAuthority_inv _ u p t hpa ha
          simp only [Option.map_some] at h
          have hc := (Option.some.inj h).symm
          obtain ⟨b1, b2, b3⟩ := hostPort_read c t (by rw [hc]) (by rw [hc]) a3 a4
          have hpath : c.path = (rest.drop 2).dropWhile (· ≠ '/') := by rw [hc]
          have hhead : c.path = [] ∨ c.path.head? = some '/' := by
            rw [hpath]
            generalize rest.drop 2 = l
            induction l with
            | nil => simp
            | cons z l ih =>
              rw [List.dropWhile_cons]
              split
              · exact ih
              · next hz => right; simpa using hz
          refine ⟨by rw [hc]; exact hs, by rw [hc]; exact a1, by rw [hc]; exact a2, fun x hx => (hostOk_iff x).1 (b2 x hx), b1, b3, ?_,
            by rw [hc]; exact hq, by rw [hc]; simp, fun _ => hhead, hn, fun _ _ => ?_⟩
          · intro x hx
            rw [hpath] at hx
            exact hpr x (List.mem_of_mem_drop ((List.dropWhile_sublist _).subset hx))
          · rcases hhead with h4 | h4
            · rw [h4]; simp
            · cases hcp : c.path with
              | nil => simp
              | cons z l => rw [hcp] at h4; simp at h4; subst h4; simp
      · rw [unescape_plain _ _ hp (by simp)] at h
        refine plain rest rfl (fun _ => ?_) (Option.some.inj h).symm
        rw [cutFirst_slash] at h2
        by_cases hh : rest.head? = some '/'
        · cases rest with
          | nil => simp
          | cons z l => simp at hh; subst hh; simp
        · exact fun hm => h2 ⟨hh, hm⟩

theorem netParse_clean (raw : List Char) (c : Comps) (hp : '%' ∉ raw) (h : netParse raw = some c)
    (hn : noAuthority c → c.path.take 2 = ['/', '/'] → c.scheme = [] ∧ c.path.take 3 = ['/', '/', '/']) : Clean c := by
  rw [netParse] at h
  have hpf : '%' ∉ (cutFirst '#' raw).2.getD [] := fun hx => hp ((cutFirst_mem '#' raw _).2 hx)
  have hpb : '%' ∉ (cutFirst '#' raw).1 := fun hx => hp ((cutFirst_mem '#' raw _).1 hx)
  have hnb : '#' ∉ (cutFirst '#' raw).1 := (cutFirst_spec '#' raw).1
  generalize (cutFirst '#' raw).1 = body at *
  generalize (cutFirst '#' raw).2.getD [] = frag at *
  cases hb : parseBody body with
  | none => rw [hb] at h; cases h
  | some d =>
    rw [hb] at h
    simp only at h
    rw [unescape_plain _ _ hpf (by simp)] at h
    have hc := (Option.some.inj h).symm
    have hd : Clean d := by
      rw [parseBody_eq] at hb
      split at hb
      · cases hb
      · next hctl =>
        have hctl : ∀ x ∈ body, 0x20 ≤ x.toNat ∧ x.toNat ≠ 0x7f := by
          intro x hx
          have : ctl x = false := by
            cases hcx : ctl x with
            | false => rfl
            | true => exact absurd (List.any_eq_true.2 ⟨x, hx, hcx⟩) hctl
          simp only [ctl, Bool.or_eq_false_iff, decide_eq_false_iff_not, beq_eq_false_iff_ne] at this
          omega
        cases hg : getScheme body with
        | none => rw [hg] at hb; cases hb
        | some p =>
          obtain ⟨sch, rest⟩ := p
          rw [hg] at hb
          simp only at hb
          have hsub : ∀ x ∈ rest, x ∈ body := by
            rcases getScheme_inv _ _ _ hg with ⟨_, h1⟩ | ⟨h1, _⟩
            · rw [h1]; exact fun _ hx => hx
            · rw [h1]; intro x hx; simp [hx]
          apply parseRest_inv _ _ _ d _ _ _ _ hb (by rw [hc] at hn; exact hn)
          · exact fun hx => hpb (hsub _ ((cutFirst_mem '?' rest _).1 hx))
          · intro x hx
            have hxb := hsub _ ((cutFirst_mem '?' rest _).1 hx)
            refine ⟨?_, hctl x hxb⟩
            simp only [List.mem_cons, List.not_mem_nil, or_false]
            rintro (he | he)
            · exact (cutFirst_spec '?' rest).1 (he ▸ hx)
            · exact hnb (he ▸ hxb)
          · rcases getScheme_inv _ _ _ hg with ⟨h1, _⟩ | ⟨_, z, r, h1, h2, h3⟩
            · rw [h1]; simp
            · rw [h1]
              refine ⟨fun x hx => ?_, fun x hx => ?_⟩
              · simp only [List.map_cons, List.mem_cons, List.mem_map] at hx
                rcases hx with hx | ⟨y, hy, hx⟩
                · subst hx; exact Or.inl (lower_alpha z h2)
                · subst hx; exact lower_scheme y (h3 y hy)
              · simp at hx; subst hx; exact lower_alpha z h2
          · intro x hx
            have hxb := hsub _ ((cutFirst_mem '?' rest _).2 hx)
            exact ⟨fun he => hnb (he ▸ hxb), hctl x hxb⟩
    rw [hc]
    exact ⟨hd.scheme, hd.username, hd.password, hd.host, hd.hostText, hd.noColon, hd.path, hd.query, hpf, hd.afterAuthority, hd.noAuthority,
      hd.noScheme⟩

end Verif.NetURL
