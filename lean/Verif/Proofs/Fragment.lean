import Verif.Spec.Fragment

/-!
# Proofs about URI fragments
-/

namespace Verif.Fragment

/-! ## Characters -/

theorem forall_byte {P : UInt8 → Prop} (h : ∀ n : Nat, n < 256 → P (UInt8.ofNat n)) (c : UInt8) : P c := by
  have := h c.toNat c.toNat_lt
  simpa using this

theorem plain_iff (c : UInt8) : Plain c ↔ shouldEscape c = false := by
  refine forall_byte (P := fun c => c ∈ bytes _ ↔ shouldEscape c = false) ?_ c
  decide +kernel

theorem hex_facts (c : UInt8) : isHex (hex (c / 16)) = true ∧ isHex (hex (c % 16)) = true ∧ unhex (hex (c / 16)) * 16 + unhex (hex (c % 16)) = c ∧
    hex (c / 16) ∉ ([47, 46, 37] : List UInt8) ∧ hex (c % 16) ∉ ([47, 46, 37] : List UInt8) := by
  refine forall_byte (P := fun c => isHex (hex (c / 16)) = true ∧ isHex (hex (c % 16)) = true ∧ unhex (hex (c / 16)) * 16 + unhex (hex (c % 16)) = c ∧
    hex (c / 16) ∉ ([47, 46, 37] : List UInt8) ∧ hex (c % 16) ∉ ([47, 46, 37] : List UInt8)) ?_ c
  decide +kernel

theorem escape_37 : shouldEscape 37 = true := by decide
theorem escape_47 : shouldEscape 47 = true := by decide
theorem escape_46 : shouldEscape 46 = false := by decide

theorem pathEscape_nil : pathEscape [] = [] := rfl
theorem pathEscape_cons (c : UInt8) (s : Str) :
    pathEscape (c :: s) = (if shouldEscape c then [37, hex (c / 16), hex (c % 16)] else [c]) ++ pathEscape s := by
  simp [pathEscape]
theorem pathEscape_append (s t : Str) : pathEscape (s ++ t) = pathEscape s ++ pathEscape t := by
  simp [pathEscape]

theorem pathEscape_plain (s : Str) (h : ∀ b ∈ s, shouldEscape b = false) : pathEscape s = s := by
  induction s with
  | nil => rfl
  | cons c s ih =>
    rw [pathEscape_cons, ih (fun b hb => h b (by simp [hb]))]
    simp [h c]

theorem pathEscape_length (s : Str) : s.length ≤ (pathEscape s).length := by
  induction s with
  | nil => simp
  | cons c s ih => rw [pathEscape_cons]; split <;> simp <;> omega

theorem pathEscape_longer (s : Str) (h : ∃ b ∈ s, shouldEscape b = true) : s.length < (pathEscape s).length := by
  induction s with
  | nil => simp at h
  | cons c s ih =>
    rw [pathEscape_cons]
    have := pathEscape_length s
    split
    · simp; omega
    · rename_i hc
      obtain ⟨b, hb, hb'⟩ := h
      have : b ∈ s := by grind
      have := ih ⟨b, this, hb'⟩
      simp; omega

theorem pathEscape_slash (s : Str) : 47 ∉ pathEscape s := by
  induction s with
  | nil => simp [pathEscape]
  | cons c s ih =>
    rw [pathEscape_cons]
    have := hex_facts c
    have h47 := escape_47
    split <;> grind

theorem pathEscape_dots (s : Str) : (pathEscape s).count 46 = s.count 46 := by
  induction s with
  | nil => simp [pathEscape]
  | cons c s ih =>
    rw [pathEscape_cons]
    have := hex_facts c
    have h46 := escape_46
    rw [List.count_append, ih, List.count_cons]
    split
    · have : c ≠ 46 := by grind
      have e1 : hex (c / 16) ≠ 46 := by grind
      have e2 : hex (c % 16) ≠ 46 := by grind
      simp [List.count_cons, e1, e2, this]
    · simp [List.count_cons]; omega

theorem unescape_escape (s : Str) : pathUnescape (pathEscape s) = some s := by
  induction s with
  | nil => rfl
  | cons c s ih =>
    rw [pathEscape_cons]
    have := hex_facts c
    have h37 := escape_37
    split
    · simp [pathUnescape, this, ih]
    · have : c ≠ 37 := by grind
      show pathUnescape (c :: pathEscape s) = _
      rw [pathUnescape.eq_def]
      simp only [if_neg this, ih]
      rfl

theorem pathEscape_eq_nil (s : Str) (h : pathEscape s = []) : s = [] := by
  have := pathEscape_length s
  rw [h] at this
  exact List.eq_nil_of_length_eq_zero (by simpa using this)

theorem pathEscape_ne_percent (s : Str) : pathEscape s ≠ [37] := by
  cases s with
  | nil => simp [pathEscape]
  | cons c s =>
    rw [pathEscape_cons]
    have h37 := escape_37
    split
    · simp
    · intro h
      simp at h
      grind

/-- A percent sign of an escaped string is followed by two characters, which are no dot and no percent sign. -/
theorem pathEscape_percent (s : Str) (a b : Str) (h : pathEscape s = a ++ 37 :: b) : ∃ x y : UInt8, ∃ t : Str, b = x :: y :: t ∧ x ≠ 46 ∧ x ≠ 37 ∧ y ≠ 46 ∧ y ≠ 37 := by
  induction s generalizing a with
  | nil => simp [pathEscape] at h
  | cons c s ih =>
    rw [pathEscape_cons] at h
    have hf := hex_facts c
    have h37 := escape_37
    split at h
    · match a, h with
      | [], h => simp at h; subst h; exact ⟨_, _, _, rfl, by grind, by grind, by grind, by grind⟩
      | [p], h => simp at h; grind
      | [p, q], h => simp at h; grind
      | p :: q :: r :: a, h =>
        simp at h
        exact ih a h.2.2.2
    · match a, h with
      | [], h => simp at h; grind
      | p :: a, h =>
        simp at h
        exact ih a h.2

/-! ## Numbers -/

theorem itoa_digits (n : Nat) : itoa n ≠ [] ∧ (∀ d ∈ itoa n, 48 ≤ d ∧ d ≤ 57) ∧ value (itoa n) = n := by
  induction n using itoa.induct with
  | case1 n h =>
    rw [itoa, if_pos h]
    have : ∀ n : Nat, n < 10 → (48 ≤ UInt8.ofNat (48 + n) ∧ UInt8.ofNat (48 + n) ≤ 57) ∧ (UInt8.ofNat (48 + n)).toNat - 48 = n := by decide
    simpa [value] using this n h
  | case2 n h ih =>
    rw [itoa, if_neg h]
    have h10 : n % 10 < 10 := by omega
    have := (by decide : ∀ n : Nat, n < 10 → (48 ≤ UInt8.ofNat (48 + n) ∧ UInt8.ofNat (48 + n) ≤ 57) ∧ (UInt8.ofNat (48 + n)).toNat - 48 = n) _ h10
    refine ⟨by simp, ?_, ?_⟩
    · intro d hd
      rw [List.mem_append] at hd
      rcases hd with hd | hd
      · exact ih.2.1 d hd
      · rw [List.mem_singleton] at hd; subst hd; exact this.1
    · have e : value (itoa (n / 10) ++ [UInt8.ofNat (48 + n % 10)]) = 10 * value (itoa (n / 10)) + ((UInt8.ofNat (48 + n % 10)).toNat - 48) := by
        simp [value, List.foldl_append]
      rw [e, ih.2.2, this.2]
      omega

theorem digits_some (s : Str) (acc : Nat) (h : ∀ d ∈ s, 48 ≤ d ∧ d ≤ 57) :
    digits acc s = some (s.foldl (fun a d => 10 * a + (d.toNat - 48)) acc) := by
  induction s generalizing acc with
  | nil => rfl
  | cons c s ih =>
    have hc := h c (by simp)
    simp [digits, hc, ih _ (fun d hd => h d (by simp [hd]))]

theorem digits_inv (s : Str) (acc n : Nat) (h : digits acc s = some n) : ∀ d ∈ s, 48 ≤ d ∧ d ≤ 57 := by
  induction s generalizing acc with
  | nil => simp
  | cons c s ih =>
    simp only [digits] at h
    split at h
    · rename_i hc
      intro d hd
      simp at hd hc
      rcases hd with rfl | hd
      · exact hc
      · exact ih _ h d hd
    · simp at h

theorem digit_facts (d : UInt8) : 48 ≤ d ∧ d ≤ 57 → d ≠ 43 ∧ d ≠ 45 ∧ d ≠ 46 ∧ d ≠ 47 ∧ d ≠ 63 ∧ d ≠ 37 ∧ d < 128 := by
  refine forall_byte (P := fun d => 48 ≤ d ∧ d ≤ 57 → d ≠ 43 ∧ d ≠ 45 ∧ d ≠ 46 ∧ d ≠ 47 ∧ d ≠ 63 ∧ d ≠ 37 ∧ d < 128) ?_ d
  decide +kernel

theorem atoi_digits (ds : Str) (hne : ds ≠ []) (hd : ∀ d ∈ ds, 48 ≤ d ∧ d ≤ 57) :
    atoi ds = (if value ds ≤ maxInt then ((value ds : Int), true) else ((maxInt : Int), false)) := by
  cases ds with
  | nil => simp at hne
  | cons c ds =>
    have hc := digit_facts c (hd c (by simp))
    have h1 : (c == 43) = false := by simp [hc.1]
    have h2 : (c == 45) = false := by simp [hc.2.1]
    simp only [atoi, List.head?_cons, Option.some_beq_some, h1, h2, Bool.or_self, Bool.false_eq_true, if_false, List.isEmpty_cons]
    rw [digits_some _ _ hd]
    rfl

theorem atoi_itoa (n : Nat) (h : n < 2 ^ 63) : atoi (itoa n) = ((n : Int), true) := by
  obtain ⟨h1, h2, h3⟩ := itoa_digits n
  rw [atoi_digits _ h1 h2, h3, if_pos (by simp only [maxInt]; omega)]

theorem atoi_ok (s : Str) : (atoi s).2 = true ↔ IsInt s := by
  constructor
  · intro h
    have key : ∀ (t : Str) (n : Nat), digits 0 t = some n → (∀ d ∈ t, 48 ≤ d ∧ d ≤ 57) ∧ value t = n := by
      intro t n hn
      have hd := digits_inv _ _ _ hn
      rw [digits_some _ _ hd] at hn
      exact ⟨hd, by simpa [value] using hn⟩
    cases s with
    | nil => simp [atoi] at h
    | cons c s =>
      by_cases c45 : c = 45
      · subst c45
        simp only [atoi, List.head?_cons, beq_self_eq_true, Bool.or_true, if_true, List.tail_cons] at h
        split at h
        · simp at h
        · rename_i hne
          split at h
          · simp at h
          · rename_i n hn
            obtain ⟨hd, hv⟩ := key _ _ hn
            refine ⟨s, by simpa using hne, hd, Or.inr ⟨rfl, ?_⟩⟩
            rw [hv]
            by_cases hm : n ≤ maxInt + 1
            · simp only [maxInt] at hm; omega
            · simp [hm] at h
      · have b45 : (some c == some (45 : UInt8)) = false := by simp [c45]
        by_cases c43 : c = 43
        · subst c43
          simp only [atoi, List.head?_cons, beq_self_eq_true, Bool.true_or, if_true, List.tail_cons, b45] at h
          split at h
          · simp at h
          · rename_i hne
            split at h
            · simp at h
            · rename_i n hn
              obtain ⟨hd, hv⟩ := key _ _ hn
              refine ⟨s, by simpa using hne, hd, Or.inl ⟨Or.inr rfl, ?_⟩⟩
              rw [hv]
              by_cases hm : n ≤ maxInt
              · simp only [maxInt] at hm; omega
              · simp [hm] at h
        · have b43 : (some c == some (43 : UInt8)) = false := by simp [c43]
          simp only [atoi, List.head?_cons, b43, b45, Bool.or_self, Bool.false_eq_true, if_false, List.isEmpty_cons] at h
          split at h
          · simp at h
          · rename_i n hn
            obtain ⟨hd, hv⟩ := key _ _ hn
            refine ⟨c :: s, by simp, hd, Or.inl ⟨Or.inl rfl, ?_⟩⟩
            rw [hv]
            by_cases hm : n ≤ maxInt
            · simp only [maxInt] at hm; omega
            · simp [hm] at h
  · rintro ⟨ds, hne, hd, h⟩
    have key : digits 0 ds = some (value ds) := digits_some _ _ hd
    rcases h with ⟨h | h, hv⟩ | ⟨h, hv⟩
    · subst h
      rw [atoi_digits _ hne hd, if_pos (by simp only [maxInt]; omega)]
    · subst h
      have h3 : ds.isEmpty = false := by simpa using hne
      simp [atoi, key, h3, hne]
      rw [if_pos (by simp only [maxInt]; omega)]
    · subst h
      simp [atoi, key, hne]
      rw [if_pos (by simp only [maxInt]; omega)]

/-! ## Strings -/

theorem lastIndex_none (c : UInt8) (s : Str) (h : c ∉ s) : lastIndex c s = none := by
  induction s with
  | nil => rfl
  | cons x s ih =>
    simp only [List.mem_cons, not_or] at h
    simp [lastIndex, ih h.2, Ne.symm h.1]

theorem lastIndex_append (c : UInt8) (a b : Str) (h : c ∉ b) : lastIndex c (a ++ c :: b) = some a.length := by
  induction a with
  | nil => simp [lastIndex, lastIndex_none c b h]
  | cons x a ih => simp [lastIndex, ih]

theorem lastIndex_split (c : UInt8) (s : Str) (i : Nat) (h : lastIndex c s = some i) : ∃ a b : Str, s = a ++ c :: b ∧ a.length = i ∧ c ∉ b := by
  induction s generalizing i with
  | nil => simp [lastIndex] at h
  | cons x s ih =>
    simp only [lastIndex] at h
    split at h
    · rename_i j hj
      obtain ⟨a, b, rfl, h2, h3⟩ := ih _ hj
      exact ⟨x :: a, b, by simp, by grind, h3⟩
    · rename_i hn
      split at h
      · rename_i hx
        have hcs : c ∉ s := by
          intro hc
          obtain ⟨a, b, hab, hb⟩ : ∃ a b : Str, s = a ++ c :: b ∧ c ∉ b := by
            obtain ⟨a, b, hab, hb⟩ := List.append_of_mem (List.mem_reverse.mpr hc)
              |> fun ⟨a, b, e⟩ => (⟨_, _, e, trivial⟩ : ∃ a b : Str, s.reverse = a ++ c :: b ∧ True)
            clear hb
            have := List.eq_append_cons_of_mem (List.mem_reverse.mpr hc)
            obtain ⟨a, b, e, ha⟩ := this
            refine ⟨b.reverse, a.reverse, ?_, by simpa using ha⟩
            have := congrArg List.reverse e
            simpa using this
          rw [hab, lastIndex_append c a b hb] at hn
          simp at hn
        exact ⟨[], s, by simp [hx], by simpa using h, hcs⟩
      · simp at h

theorem lastIndex_none_iff (c : UInt8) (s : Str) (h : lastIndex c s = none) : c ∉ s := by
  intro hc
  obtain ⟨a, b, e, ha⟩ := List.eq_append_cons_of_mem (List.mem_reverse.mpr hc)
  have e' : s = b.reverse ++ c :: a.reverse := by
    have := congrArg List.reverse e
    simpa using this
  rw [e', lastIndex_append c _ _ (by simpa using ha)] at h
  simp at h

theorem split_none (c : UInt8) (s : Str) (h : c ∉ s) : split c s = [s] := by
  induction s with
  | nil => rfl
  | cons x s ih =>
    simp only [List.mem_cons, not_or] at h
    simp [split, ih h.2, Ne.symm h.1]

theorem split_append (c : UInt8) (s t : Str) (h : c ∉ s) : split c (s ++ c :: t) = s :: split c t := by
  induction s with
  | nil => simp [split]
  | cons x s ih =>
    simp only [List.mem_cons, not_or] at h
    simp [split, ih h.2, Ne.symm h.1]

theorem split_join (c : UInt8) (ss : List Str) (hne : ss ≠ []) (h : ∀ s ∈ ss, c ∉ s) : split c (join c ss) = ss := by
  induction ss with
  | nil => simp at hne
  | cons s ss ih =>
    cases ss with
    | nil => exact split_none c s (h s (by simp))
    | cons t ss =>
      rw [join, split_append c _ _ (h s (by simp)), ih (by simp) (fun s hs => h s (by simp [hs]))]
      simp

/-! ## Objects of a kind -/

theorem nth_before (W : World) (o : Nat) (l : List Nat) (h : o ∈ l) : nth W (W.kind o) (before W (W.kind o) o l) l = .obj o := by
  induction l with
  | nil => simp at h
  | cons x l ih =>
    simp only [before]
    by_cases hx : x = o
    · simp [hx, nth]
    · have hl : o ∈ l := by simp [Ne.symm hx] at h; exact h
      by_cases hk : W.kind x = W.kind o
      · simp only [if_neg hx, hk, if_true, nth]
        rw [if_neg (by omega)]
        have : ((1 + before W (W.kind o) o l : Nat) : Int) - 1 = (before W (W.kind o) o l : Int) := by omega
        rw [this, ih hl]
      · simp only [if_neg hx, hk, if_false, nth]
        simpa using ih hl

theorem nth_kind (W : World) (k : Kind) (n : Int) (l : List Nat) (o : Nat) (h : nth W k n l = .obj o) : W.kind o = k := by
  induction l generalizing n with
  | nil => simp [nth] at h
  | cons x l ih =>
    simp only [nth] at h
    split at h
    · split at h
      · simp at h; subst h; assumption
      · exact ih _ h
    · exact ih _ h

theorem before_le (W : World) (k : Kind) (o : Nat) (l : List Nat) : before W k o l ≤ l.length := by
  induction l with
  | nil => simp [before]
  | cons x l ih => 
    simp only [before, List.length_cons]
    split
    · omega
    · split <;> omega

theorem before_pos (W : World) (k : Kind) (o : Nat) (l : List Nat) (ho : o ∈ l) :
    0 < before W k o l ↔ ∃ x : Nat, (∃ a b : List Nat, l = a ++ o :: b ∧ o ∉ a ∧ x ∈ a) ∧ W.kind x = k := by
  induction l with
  | nil => simp at ho
  | cons y l ih =>
    simp only [before]
    by_cases hy : y = o
    · subst hy
      simp only [if_true, Nat.lt_irrefl, false_iff]
      rintro ⟨x, ⟨a, b, e, ha, hx⟩, -⟩
      cases a with
      | nil => simp at hx
      | cons z a => simp at e ha; grind
    · have hl : o ∈ l := by simp [Ne.symm hy] at ho; exact ho
      rw [if_neg hy]
      by_cases hk : W.kind y = k
      · rw [if_pos hk]
        refine ⟨fun _ => ?_, fun _ => by omega⟩
        obtain ⟨a, b, e, ha⟩ := List.eq_append_cons_of_mem hl
        exact ⟨y, ⟨y :: a, b, by simp [e], by simp [ha, Ne.symm hy], by simp⟩, hk⟩
      · rw [if_neg hk, Nat.zero_add, ih hl]
        constructor
        · rintro ⟨x, ⟨a, b, e, ha, hx⟩, hxk⟩
          exact ⟨x, ⟨y :: a, b, by simp [e], by simp [ha, Ne.symm hy], by simp [hx]⟩, hxk⟩
        · rintro ⟨x, ⟨a, b, e, ha, hx⟩, hxk⟩
          cases a with
          | nil => simp at hx
          | cons z a =>
            simp at e
            obtain ⟨rfl, e⟩ := e
            refine ⟨x, ⟨a, b, e, by grind, ?_⟩, hxk⟩
            simp at hx
            rcases hx with rfl | hx
            · exact absurd hxk hk
            · exact hx

theorem before_earlier (W : World) (c o : Nat) (ho : o ∈ W.contents c) :
    0 < before W (W.kind o) o (W.contents c) ↔ ∃ x : Nat, Earlier W c o x ∧ W.kind x = W.kind o := before_pos W _ o _ ho

/-! ## Segments of model elements -/

theorem isInt_nodot (s : Str) (h : IsInt s) : 46 ∉ s := by
  obtain ⟨ds, -, hd, h⟩ := h
  have : 46 ∉ ds := fun hm => (digit_facts _ (hd _ hm)).2.2.1 rfl
  rcases h with ⟨rfl | rfl, -⟩ | ⟨rfl, -⟩
  · exact this
  · simp [this]
  · simp [this]

theorem numbered_iff (s : Str) : Numbered s ↔ ∃ i : Nat, lastIndex 46 s = some i ∧ (atoi (s.drop (i + 1))).2 = true := by
  constructor
  · rintro ⟨base, num, rfl, h⟩
    refine ⟨base.length, lastIndex_append _ _ _ (isInt_nodot _ h), ?_⟩
    rw [show (base ++ 46 :: num).drop (base.length + 1) = num by simp [List.drop_append]]
    exact (atoi_ok _).2 h
  · rintro ⟨i, hi, ha⟩
    obtain ⟨a, b, rfl, rfl, -⟩ := lastIndex_split _ _ _ hi
    rw [show (a ++ 46 :: b).drop (a.length + 1) = b by simp [List.drop_append]] at ha
    exact ⟨a, b, rfl, (atoi_ok _).1 ha⟩

/-- A segment with a dot and a number. -/
theorem forName_count (W : World) (c : Nat) (p : Str) (n : Nat) (hn : n < 2 ^ 63) :
    forName W c (p ++ 46 :: itoa n) = nth W (.named (if p = [37] then [] else pathEscape p)) n (W.contents c) := by
  have hi := itoa_digits n
  have h46 : 46 ∉ itoa n := fun hm => (digit_facts _ (hi.2.1 _ hm)).2.2.1 rfl
  have e1 : (p ++ 46 :: itoa n).drop (p.length + 1) = itoa n := by simp [List.drop_append]
  simp only [forName, lastIndex_append _ _ _ h46, e1, atoi_itoa n hn, if_true, List.take_left']

/-- A segment that does not end with a dot and a number. -/
theorem forName_whole (W : World) (c : Nat) (s : Str) (h : ¬ Numbered s) :
    forName W c s = nth W (.named (if s = [37] then [] else pathEscape s)) 0 (W.contents c) := by
  rw [numbered_iff] at h
  simp only [forName]
  cases hi : lastIndex 46 s with
  | none => simp
  | some i =>
    have : (atoi (s.drop (i + 1))).2 = false := by
      cases ha : (atoi (s.drop (i + 1))).2 with
      | false => rfl
      | true => exact absurd ⟨i, hi, ha⟩ h
    simp [this]

/-- A segment that ends with a dot and a number. -/
theorem forName_numbered (W : World) (c : Nat) (a b : Str) (h : IsInt b) :
    ∃ n : Int, forName W c (a ++ 46 :: b) = nth W (.named (if a = [37] then [] else pathEscape a)) n (W.contents c) := by
  have e1 : (a ++ 46 :: b).drop (a.length + 1) = b := by simp [List.drop_append]
  refine ⟨(atoi b).1, ?_⟩
  simp only [forName, lastIndex_append _ _ _ (isInt_nodot _ h), e1, (atoi_ok b).2 h, if_true, List.take_left']

/-- The segment of a named element is not taken for the segment of an annotation. -/
theorem forSegmentElem_name (W : World) (c : Nat) (name suffix : Str) (hne : name ≠ []) (h64 : name.head? ≠ some 64) (hs : 37 ∉ suffix) :
    forSegmentElem W c (pathEscape name ++ suffix) = forName W c (pathEscape name ++ suffix) := by
  have hE : pathEscape name ≠ [] := fun h => hne (pathEscape_eq_nil _ h)
  have h64' : (pathEscape name).head? ≠ some 64 := by
    cases name with
    | nil => simp at hne
    | cons x name =>
      rw [pathEscape_cons]
      split
      · simp
      · simpa using h64
  cases hp : pathEscape name with
  | nil => exact absurd hp hE
  | cons x E =>
    rw [hp] at h64'
    have hx : x ≠ 64 := by simpa using h64'
    simp only [forSegmentElem, List.cons_append, List.head?_cons, if_neg hx]
    by_cases h37 : x = 37
    · subst h37
      rw [if_pos rfl]
      have hmem : (37 : UInt8) ∈ (37 :: E : Str) := by simp
      cases hl : lastIndex 37 (37 :: E) with
      | none => exact absurd hmem (lastIndex_none_iff _ _ hl)
      | some i =>
        obtain ⟨a, b, e, rfl, hb⟩ := lastIndex_split _ _ _ hl
        obtain ⟨u, v, t, rfl, hu, -⟩ := pathEscape_percent name a b (hp.trans e)
        have e' : 37 :: (E ++ suffix) = a ++ 37 :: (u :: v :: t ++ suffix) := by
          rw [← List.cons_append, e]; simp
        have hl' : lastIndex 37 (37 :: (E ++ suffix)) = some a.length := by
          rw [e']
          apply lastIndex_append
          simp only [List.mem_append, not_or]
          exact ⟨hb, hs⟩
        have hget : (37 :: (E ++ suffix))[a.length + 1]? = some u := by
          rw [e']; simp
        simp only [hl', hget]
        split
        · rfl
        · have h46 : (u == 46) = false := by simp [hu]
          have hlen : (a.length == (37 :: (E ++ suffix)).length - 1) = false := by
            rw [e']; simp
          simp [h46]
          intro hh
          simp [e'] at hlen
          have := congrArg List.length e'
          simp at this hh
          omega
    · rw [if_neg h37]

theorem plain_of_escape (name : Str) (h : name = pathEscape (pathEscape name)) : ∀ b ∈ name, shouldEscape b = false := by
  intro b hb
  cases hs : shouldEscape b with
  | false => rfl
  | true =>
    have h1 := pathEscape_longer name ⟨b, hb, hs⟩
    have h2 := pathEscape_length (pathEscape name)
    rw [← h] at h2
    omega

/-- When the segment of a named element leads back to it. -/
theorem named_iff (W : World) (c o : Nat) (f : Option Nat) (name : Str) (hk : W.kind o = .named name) (ho : o ∈ W.contents c)
    (hl : (W.contents c).length < 2 ^ 63) (h64 : name.head? ≠ some 64) :
    (∃ s : Str, segmentElem W c f o = some s ∧ forSegmentElem W c s = .obj o) ↔
      (∀ b ∈ name, shouldEscape b = false) ∧ ((∃ x : Nat, Earlier W c o x ∧ W.kind x = W.kind o) ∨ ¬ Numbered name) := by
  rw [← before_earlier W c o ho]
  have hlt : before W (W.kind o) o (W.contents c) < 2 ^ 63 := Nat.lt_of_le_of_lt (before_le W _ o _) hl
  have hnth := nth_before W o (W.contents c) ho
  simp only [segmentElem, hk, Option.some.injEq, exists_eq_left', gt_iff_lt]
  rw [hk] at hlt hnth
  generalize hcnt : before W (.named name) o (W.contents c) = n at hlt hnth
  have hdig : 37 ∉ (46 :: itoa n : Str) := by
    have hi := itoa_digits n
    intro hm
    simp at hm
    exact (digit_facts _ (hi.2.1 _ hm)).2.2.2.2.2.1 rfl
  by_cases hne : name = []
  · subst hne
    simp only [List.length_nil, if_true]
    refine ⟨fun _ => ⟨by simp, Or.inr (by rintro ⟨a, b, e, -⟩; simp at e)⟩, fun _ => ?_⟩
    by_cases hn : 0 < n
    · rw [if_pos hn]
      have : lastIndex 37 ([37] ++ 46 :: itoa n) = some 0 := lastIndex_append 37 [] _ hdig
      simp only [forSegmentElem, List.cons_append, List.head?_cons, List.nil_append] at this ⊢
      simp only [this]
      simp only [show ¬ (37 : UInt8) = 64 by decide, if_false, if_true]
      have := forName_count W c [37] n hlt
      simp only [List.cons_append, List.nil_append] at this
      rw [this]
      simpa using hnth
    · rw [if_neg hn]
      have h0 : n = 0 := by omega
      subst h0
      simpa [forSegmentElem, forName, lastIndex] using hnth
  · have hlen : ¬ name.length = 0 := by simpa using hne
    rw [if_neg hlen]
    by_cases hn : 0 < n
    · rw [if_pos hn, forSegmentElem_name W c name _ hne h64 hdig, forName_count W c _ n hlt, if_neg (pathEscape_ne_percent name)]
      constructor
      · intro h
        have := nth_kind W _ _ _ _ h
        rw [hk] at this
        exact ⟨plain_of_escape name (by simpa using this), Or.inl hn⟩
      · rintro ⟨h, -⟩
        rw [pathEscape_plain name h, pathEscape_plain name h]
        exact hnth
    · rw [if_neg hn]
      have h0 : n = 0 := by omega
      subst h0
      have e1 := forSegmentElem_name W c name [] hne h64 (by simp)
      rw [List.append_nil] at e1
      rw [e1]
      by_cases hnum : Numbered (pathEscape name)
      · obtain ⟨a, b, e, hb⟩ := hnum
        obtain ⟨m, hm⟩ := forName_numbered W c a b hb
        rw [e, hm]
        constructor
        · intro h
          have := nth_kind W _ _ _ _ h
          rw [hk] at this
          simp only [Kind.named.injEq] at this
          have hd := pathEscape_dots name
          rw [e] at hd
          split at this
          · exact absurd this hne
          · have hd2 := pathEscape_dots a
            rw [← this] at hd2
            simp [List.count_append] at hd
            omega
        · rintro ⟨h, h' | h'⟩
          · omega
          · rw [pathEscape_plain name h] at e
            exact absurd ⟨a, b, e, hb⟩ h'
      · rw [forName_whole W c _ hnum, if_neg (pathEscape_ne_percent name)]
        constructor
        · intro h
          have := nth_kind W _ _ _ _ h
          rw [hk] at this
          have hp := plain_of_escape name (by simpa using this)
          refine ⟨hp, Or.inr ?_⟩
          rwa [pathEscape_plain name hp] at hnum
        · rintro ⟨h, -⟩
          rw [pathEscape_plain name h, pathEscape_plain name h]
          exact hnth

/-- The segment of an annotation: the lookup panics for the first one of its source, leads back for the others. -/
theorem annotation_spec (W : World) (c o : Nat) (f : Option Nat) (source : Str) (hk : W.kind o = .annotation source) (ho : o ∈ W.contents c)
    (hl : (W.contents c).length < 2 ^ 63) :
    ∃ s : Str, segmentElem W c f o = some s ∧ 47 ∉ s ∧
      forSegmentElem W c s = if 0 < before W (W.kind o) o (W.contents c) then .obj o else .panic := by
  have hlt : before W (W.kind o) o (W.contents c) < 2 ^ 63 := Nat.lt_of_le_of_lt (before_le W _ o _) hl
  have hnth := nth_before W o (W.contents c) ho
  simp only [segmentElem, hk, Option.some.injEq, exists_eq_left', gt_iff_lt]
  rw [hk] at hlt hnth
  generalize hcnt : before W (.annotation source) o (W.contents c) = n at hlt hnth
  have hi := itoa_digits n
  have hdig : 37 ∉ (46 :: itoa n : Str) := by
    intro hm
    simp at hm
    exact (digit_facts _ (hi.2.1 _ hm)).2.2.2.2.2.1 rfl
  have h47 : 47 ∉ itoa n := fun hm => (digit_facts _ (hi.2.1 _ hm)).2.2.2.1 rfl
  have hsl := pathEscape_slash source
  generalize hE : (if source.length = 0 then [37] else pathEscape source : Str) = E
  have hE47 : 47 ∉ E := by subst hE; split <;> simp [hsl]
  have hsrc : (if E = [37] then [] else (pathUnescape E).getD []) = source := by
    subst hE
    split
    · rename_i h; simpa using (List.eq_nil_of_length_eq_zero h).symm
    · rw [if_neg (pathEscape_ne_percent source), unescape_escape]; rfl
  have hli : ∀ suffix : Str, 37 ∉ suffix → lastIndex 37 (37 :: (E ++ 37 :: suffix)) = some (E.length + 1) := by
    intro suffix hs
    have := lastIndex_append 37 (37 :: E) suffix hs
    simpa using this
  by_cases hn : 0 < n
  · rw [if_pos hn, if_pos hn]
    have e : 37 :: (E ++ [37]) ++ 46 :: itoa n = 37 :: (E ++ 37 :: 46 :: itoa n) := by simp
    rw [e]
    constructor
    · simp [hE47, h47]
    · have hl' := hli _ hdig
      have hget : (37 :: (E ++ 37 :: 46 :: itoa n))[E.length + 1 + 1]? = some 46 := by simp
      have htake : ((37 :: (E ++ 37 :: 46 :: itoa n)).take (E.length + 1)).drop 1 = E := by simp
      have hdrop : (37 :: (E ++ 37 :: 46 :: itoa n)).drop (E.length + 1 + 2) = itoa n := by
        simp [List.drop_append]
      simp only [forSegmentElem, List.head?_cons, hl', hget, show ¬ (37 : UInt8) = 64 by decide, if_false, if_true, Nat.add_eq_zero_iff, Nat.one_ne_zero, and_false,
        beq_self_eq_true, Bool.or_true, htake, hsrc, hdrop, atoi_itoa n hlt, Bool.and_self]
      exact hnth
  · rw [if_neg hn, if_neg hn]
    constructor
    · simp [hE47]
    · have hl' := hli [] (by simp)
      have hget : (37 :: (E ++ [37]))[E.length + 1 + 1]? = none := by simp
      simp only [forSegmentElem, List.head?_cons, hl', hget, show ¬ (37 : UInt8) = 64 by decide, if_false, if_true, Nat.add_eq_zero_iff, Nat.one_ne_zero, and_false]

/-! ## Segments of other objects -/

theorem featureFromName_eq (W : World) (c f o : Nat) (h : Held W c f o) : featureFromName W c (W.fname f) = some f := by
  simp only [featureFromName]
  cases hf : (W.feats c).reverse.find? (fun g => W.fname g = W.fname f) with
  | none =>
    have := List.find?_eq_none.mp hf f (by simpa using h.mem)
    simp at this
  | some g =>
    have h1 := List.mem_of_find?_eq_some hf
    have h2 := List.find?_some hf
    rw [h.unique g (by simpa using h1) (by simpa using h2)]

theorem base_spec (W : World) (c f o : Nat) (h : Held W c f o) :
    ∃ s : Str, segmentBase W c (some f) o = some s ∧ 47 ∉ s ∧ s.head? = some 64 ∧ forSegmentBase W c s = .obj o := by
  have hf := featureFromName_eq W c f o h
  cases hm : W.many f with
  | false =>
    obtain ⟨hv, hdot⟩ := h.single hm
    refine ⟨64 :: W.fname f, by simp [segmentBase, hm], by simp [h.slash], by simp, ?_⟩
    have h46 : lastIndex 46 (64 :: W.fname f) = none := lastIndex_none _ _ (by simp [hdot])
    simp [forSegmentBase, h46, hf, hv, asObject]
  | true =>
    obtain ⟨l, hv, hol, hlen⟩ := h.many hm
    cases hi : l.idxOf? o with
    | none => simp [List.idxOf?_eq_none_iff] at hi; exact absurd hol hi
    | some i =>
      have hil : l[i]? = some o := by
        rw [List.idxOf?_eq_some_iff] at hi
        obtain ⟨hlt, h1, -⟩ := hi
        rw [List.getElem?_eq_getElem hlt]
        simpa using h1
      have hlt : i < l.length := by
        rw [List.getElem?_eq_some_iff] at hil
        exact hil.1
      have hd := itoa_digits i
      have h46 : 46 ∉ itoa i := fun hm => (digit_facts _ (hd.2.1 _ hm)).2.2.1 rfl
      have h47 : 47 ∉ itoa i := fun hm => (digit_facts _ (hd.2.1 _ hm)).2.2.2.1 rfl
      refine ⟨(64 :: W.fname f) ++ 46 :: itoa i, by simp [segmentBase, hm, hv, hi], by simp [h.slash, h47], by simp, ?_⟩
      have hli : lastIndex 46 ((64 :: W.fname f) ++ 46 :: itoa i) = some ((W.fname f).length + 1) := by
        simpa using lastIndex_append 46 (64 :: W.fname f) (itoa i) h46
      have hend : endsWithDigit W ((64 :: W.fname f) ++ 46 :: itoa i) = true := by
        have hlast : ((64 :: W.fname f) ++ 46 :: itoa i).getLast? = (itoa i).getLast? := by
          rw [List.getLast?_append, List.getLast?_cons]
          cases hg : (itoa i).getLast? with
          | none => simp at hg; exact absurd hg hd.1
          | some d => simp
        simp only [endsWithDigit, hlast]
        cases hg : (itoa i).getLast? with
        | none => simp at hg; exact absurd hg hd.1
        | some d =>
          have hdm := hd.2.1 d (List.mem_of_getLast? hg)
          have := (digit_facts d hdm).2.2.2.2.2.2
          simp [this, hdm]
      have hdrop : ((64 :: W.fname f) ++ 46 :: itoa i).drop ((W.fname f).length + 1 + 1) = itoa i := by
        simp [List.drop_append]
      have htake : (((64 :: W.fname f) ++ 46 :: itoa i).take ((W.fname f).length + 1)).drop 1 = W.fname f := by
        simp
      have h2 : ((i : Int) < (l.length : Int)) := by omega
      have h3 : ¬ ((i : Int) < 0) := by omega
      simp only [forSegmentBase, hend, hli, if_true, hdrop, htake, hf, hv, atoi_itoa i (by omega), h2, h3, if_false]
      simp [hil]

theorem segment_spec (W : World) (c f o : Nat) (h : Held W c f o) (ha : W.elem c = true → Addressable W c o) :
    ∃ s : Str, segment W c (some f) o = some s ∧ 47 ∉ s ∧ forSegment W c s = .obj o := by
  obtain ⟨s, b1, b2, b3, b4⟩ := base_spec W c f o h
  cases he : W.elem c with
  | false => exact ⟨s, by simp [segment, he, b1], b2, by simp [forSegment, he, b4]⟩
  | true =>
    obtain ⟨ho, hl, hk⟩ := ha he
    simp only [segment, forSegment, he, if_true]
    cases hkind : W.kind o with
    | plain =>
      refine ⟨s, by simp [segmentElem, hkind, b1], b2, ?_⟩
      cases s with
      | nil => simp at b3
      | cons x s => simp at b3; subst b3; simpa [forSegmentElem] using b4
    | annotation source =>
      obtain ⟨t, h1, h2, h3⟩ := annotation_spec W c o (some f) source hkind ho hl
      refine ⟨t, h1, h2, ?_⟩
      rw [h3, if_pos]
      rw [before_earlier W c o ho]
      simp only [hkind] at hk ⊢
      exact hk
    | named name =>
      simp only [hkind] at hk
      obtain ⟨hk1, hk2, hk3⟩ := hk
      obtain ⟨t, h1, h2⟩ := (named_iff W c o (some f) name hkind ho hl hk2).2
        ⟨fun b hb => (plain_iff b).1 (hk1 b hb), by rw [hkind]; exact hk3⟩
      refine ⟨t, h1, ?_, h2⟩
      simp only [segmentElem, hkind, Option.some.injEq] at h1
      subst h1
      have hi := fun n => itoa_digits n
      have h47 : ∀ n, 47 ∉ itoa n := fun n hm => (digit_facts _ ((hi n).2.1 _ hm)).2.2.2.1 rfl
      have hsl := pathEscape_slash name
      split <;> split <;> simp [h47, hsl]

/-! ## Paths -/

theorem rootSegment_slash (R : Resource) (o : Nat) : 47 ∉ rootSegment R o := by
  simp only [rootSegment]
  split
  · split
    · exact fun hm => (digit_facts _ ((itoa_digits _).2.1 _ hm)).2.2.2.1 rfl
    · decide
  · simp

theorem rootSegment_spec (W : World) (R : Resource) (n o : Nat) (ho : o ∈ R.roots) (hl : R.roots.length < 2 ^ 63) :
    objectForRoot W R n (rootSegment R o) = .obj o := by
  simp only [rootSegment]
  split
  · cases hi : R.roots.idxOf? o with
    | none => simp [List.idxOf?_eq_none_iff] at hi; exact absurd ho hi
    | some i =>
      have hil : R.roots[i]? = some o := by
        rw [List.idxOf?_eq_some_iff] at hi
        obtain ⟨hlt, h1, -⟩ := hi
        rw [List.getElem?_eq_getElem hlt]
        simpa using h1
      have hlt : i < R.roots.length := by
        rw [List.getElem?_eq_some_iff] at hil
        exact hil.1
      have hd := itoa_digits i
      have ha := atoi_itoa i (by omega)
      simp only [objectForRoot]
      split
      · rename_i e
        exact absurd rfl ((digit_facts 63 (hd.2.1 63 (by rw [e]; simp))).2.2.2.2.1)
      · have hlen : (itoa i).length > 0 := List.length_pos_iff.mpr hd.1
        rw [if_pos hlen, ha]
        have : ¬ ((i : Int) < 0) := by omega
        simp [this, hil]
  · rename_i hlen
    match hr : R.roots, ho with
    | [x], ho => simp at ho; subst ho; simp [objectForRoot, hr]
    | x :: y :: r, _ => rw [hr] at hlen; simp at hlen

/-- The loop of `uriFragment` collects a path from a root to the object. -/
theorem climb_spec (W : World) (R : Resource) (o : Nat) (h : InTree W R o) (ho : R.inside o = false) :
    ∃ (k x : Nat) (segs : List Str), x ∈ R.roots ∧ (∀ s ∈ segs, 47 ∉ s) ∧ follow W (.obj x) segs = .obj o ∧
      ∀ n : Nat, k ≤ n → ∀ path : List Str, climb W R [] n o path = some (x, true, segs ++ path) := by
  induction h with
  | root o hin hr => simp [hin] at ho
  | child o c f hin hc hf hheld ha hT ih =>
    obtain ⟨s, hs1, hs2, hs3⟩ := segment_spec W c f o hheld ha
    cases hic : R.inside c with
    | true =>
      have hroot : c ∈ R.roots := by
        cases hT with
        | root _ _ hr => exact hr
        | child _ _ _ hin' => simp [hic] at hin'
      refine ⟨1, c, [s], hroot, by simpa using hs2, by simp [follow, hs3], ?_⟩
      intro n hn path
      obtain ⟨n, rfl⟩ : ∃ m, n = m + 1 := ⟨n - 1, by omega⟩
      simp [climb, hc, hf, hs1, hic]
    | false =>
      obtain ⟨k, x, segs, h1, h2, h3, h4⟩ := ih hic
      refine ⟨k + 1, x, segs ++ [s], h1, ?_, ?_, ?_⟩
      · intro t ht
        simp at ht
        rcases ht with ht | rfl
        · exact h2 t ht
        · exact hs2
      · have : ∀ (r : Ret) (segs : List Str), follow W r segs = .obj c → follow W r (segs ++ [s]) = .obj o := by
          intro r segs
          induction segs generalizing r with
          | nil => intro h; cases r <;> simp [follow] at h ⊢; subst h; exact hs3
          | cons t segs ih =>
            intro h
            cases r with
            | obj y => simp only [follow, List.cons_append] at h ⊢; exact ih _ h
            | nil => simp [follow] at h
            | panic => simp [follow] at h
        exact this _ _ h3
      · intro n hn path
        obtain ⟨n, rfl⟩ : ∃ m, n = m + 1 := ⟨n - 1, by omega⟩
        simp only [climb, hc, hf, hs1, hic]
        simp only [List.length_nil, if_true, Option.map_some, Bool.false_eq_true, if_false]
        rw [h4 n (by omega)]
        simp

theorem climb_id (W : World) (R : Resource) (id : Str) (hid : id ≠ []) (o : Nat) (h : InTree W R o) (ho : R.inside o = false) :
    ∃ k : Nat, ∀ n : Nat, k ≤ n → ∃ x : Nat, climb W R id n o [] = some (x, true, []) := by
  have hlen : ¬ id.length = 0 := by simpa using hid
  induction h with
  | root o hin hr => simp [hin] at ho
  | child o c f hin hc hf hheld ha hT ih =>
    cases hic : R.inside c with
    | true =>
      refine ⟨1, fun n hn => ⟨c, ?_⟩⟩
      obtain ⟨n, rfl⟩ : ∃ m, n = m + 1 := ⟨n - 1, by omega⟩
      simp [climb, hc, hid, hic]
    | false =>
      obtain ⟨k, hk⟩ := ih hic
      refine ⟨k + 1, fun n hn => ?_⟩
      obtain ⟨n, rfl⟩ : ∃ m, n = m + 1 := ⟨n - 1, by omega⟩
      obtain ⟨x, hx⟩ := hk n (by omega)
      exact ⟨x, by simp [climb, hc, hid, hic, hx]⟩

/-! ## Search by ID -/

inductive Reach (W : World) (l : List Nat) : Nat → Prop where
  | root (o : Nat) : o ∈ l → Reach W l o
  | child (o c : Nat) : Reach W l c → o ∈ W.contents c → Reach W l o

theorem Reach.mono {W : World} {l l' : List Nat} (h : ∀ x ∈ l, Reach W l' x) {x : Nat} (hx : Reach W l x) : Reach W l' x := by
  induction hx with
  | root o ho => exact h o ho
  | child o c _ ho ih => exact .child o c ih ho

theorem Reach.cons {W : World} {y : Nat} {l : List Nat} {x : Nat} (hx : Reach W (y :: l) x) : x = y ∨ Reach W (W.contents y) x ∨ Reach W l x := by
  induction hx with
  | root o ho =>
    simp at ho
    rcases ho with rfl | ho
    · exact Or.inl rfl
    · exact Or.inr (Or.inr (.root _ ho))
  | child o c _ ho ih =>
    rcases ih with rfl | ih | ih
    · exact Or.inr (Or.inl (.root _ ho))
    · exact Or.inr (Or.inl (.child _ _ ih ho))
    · exact Or.inr (Or.inr (.child _ _ ih ho))

theorem find_spec (W : World) (R : Resource) (id : Str) (h : Nat → Nat)
    (hh : ∀ c : Nat, ∀ x ∈ W.contents c, h x < h c) :
    ∀ (m : Nat) (l : List Nat), (∀ x ∈ l, h x < m) → ∀ (rest : List Nat) (r : Ret),
      (∃ k, ∀ n, k ≤ n → findID W R id n rest = r) →
      (∃ k o, Reach W l o ∧ R.eid o = id ∧ ∀ n, k ≤ n → findID W R id n (l ++ rest) = .obj o) ∨
      ((∃ k, ∀ n, k ≤ n → findID W R id n (l ++ rest) = r) ∧ ∀ x, Reach W l x → R.eid x ≠ id) := by
  have hnil : ∀ x, ¬ Reach W [] x := by
    intro x hx
    induction hx with
    | root o ho => simp at ho
    | child o c _ ho ih => exact ih
  intro m
  induction m with
  | zero => intro l hl rest r hr; cases l with
    | nil => exact Or.inr ⟨by simpa using hr, fun x hx => absurd hx (hnil x)⟩
    | cons x l => exact absurd (hl x (by simp)) (by omega)
  | succ m ihm =>
    intro l hl
    induction l with
    | nil => intro rest r hr; exact Or.inr ⟨by simpa using hr, fun x hx => absurd hx (hnil x)⟩
    | cons x l ihl =>
      intro rest r hr
      have hsub : ∀ y, Reach W (W.contents x) y → Reach W (x :: l) y :=
        fun y => Reach.mono fun z hz => .child z x (.root x (by simp)) hz
      have hsub' : ∀ y, Reach W l y → Reach W (x :: l) y := fun y => Reach.mono fun z hz => .root z (by simp [hz])
      by_cases hx : R.eid x = id
      · refine Or.inl ⟨1, x, .root x (by simp), hx, fun n hn => ?_⟩
        obtain ⟨n, rfl⟩ : ∃ m, n = m + 1 := ⟨n - 1, by omega⟩
        simp [findID, hx]
      · have hstep : ∀ k r', (∀ n, k ≤ n → findID W R id n (W.contents x ++ (l ++ rest)) = r') →
            ∀ n, k + 1 ≤ n → findID W R id n (x :: l ++ rest) = r' := by
          intro k r' hk n hn
          obtain ⟨n, rfl⟩ : ∃ m, n = m + 1 := ⟨n - 1, by omega⟩
          simp [findID, Ne.symm hx, hk n (by omega)]
        have hc : ∀ y ∈ W.contents x, h y < m := fun y hy => by
          have := hh x y hy
          have := hl x (by simp)
          omega
        rcases ihl (fun y hy => hl y (by simp [hy])) rest r hr with ⟨k, o, hro, ho, hk⟩ | ⟨⟨k, hk⟩, hne⟩
        · rcases ihm (W.contents x) hc (l ++ rest) (.obj o) ⟨k, hk⟩ with ⟨k', o', hro', ho', hk'⟩ | ⟨⟨k', hk'⟩, -⟩
          · exact Or.inl ⟨k' + 1, o', hsub _ hro', ho', hstep _ _ hk'⟩
          · exact Or.inl ⟨k' + 1, o, hsub' _ hro, ho, hstep _ _ hk'⟩
        · rcases ihm (W.contents x) hc (l ++ rest) r ⟨k, hk⟩ with ⟨k', o', hro', ho', hk'⟩ | ⟨⟨k', hk'⟩, hne'⟩
          · exact Or.inl ⟨k' + 1, o', hsub _ hro', ho', hstep _ _ hk'⟩
          · refine Or.inr ⟨⟨k' + 1, hstep _ _ hk'⟩, ?_⟩
            intro y hy
            rcases hy.cons with rfl | hy | hy
            · exact hx
            · exact hne' y hy
            · exact hne y hy

theorem findID_spec (W : World) (R : Resource) (h : Nat → Nat) (hh : ∀ c : Nat, ∀ x ∈ W.contents c, h x < h c) (o : Nat)
    (ho : Visited W R o) (hu : ∀ x : Nat, Visited W R x → R.eid x = R.eid o → x = o) :
    ∃ k, ∀ n, k ≤ n → findID W R (R.eid o) n R.roots = .obj o := by
  have hv : ∀ x, Reach W R.roots x → Visited W R x := by
    intro x hx
    induction hx with
    | root o ho => exact .root o ho
    | child o c _ ho ih => exact .child o c ih ho
  have hv' : ∀ x, Visited W R x → Reach W R.roots x := by
    intro x hx
    induction hx with
    | root o ho => exact .root o ho
    | child o c _ ho ih => exact .child o c ih ho
  have hbound : ∃ m, ∀ x ∈ R.roots, h x < m := by
    generalize R.roots = l
    induction l with
    | nil => exact ⟨0, by simp⟩
    | cons y l ih =>
      obtain ⟨m, hm⟩ := ih
      refine ⟨max m (h y + 1), ?_⟩
      intro x hx
      simp at hx
      rcases hx with rfl | hx
      · omega
      · have := hm x hx; omega
  obtain ⟨m, hm⟩ := hbound
  have := find_spec W R (R.eid o) h hh m R.roots hm [] .nil ⟨1, fun n hn => by
    obtain ⟨n, rfl⟩ : ∃ m, n = m + 1 := ⟨n - 1, by omega⟩
    rfl⟩
  simp only [List.append_nil] at this
  rcases this with ⟨k, x, hx, he, hk⟩ | ⟨-, hne⟩
  · obtain rfl := hu x (hv x hx) he
    exact ⟨k, hk⟩
  · exact absurd rfl (hne o (hv' o ho))

/-- A proper ID is looked up as it is. -/
theorem getEObject_id (W : World) (R : Resource) (n : Nat) (id : Str) (h : ProperID id) : getEObject W R n id = objectByID W R n id := by
  have hlen : id.length > 0 := List.length_pos_iff.mpr h.ne
  simp only [getEObject, if_pos hlen, if_neg h.slash]
  split
  · rename_i hl
    obtain ⟨s, rfl⟩ : ∃ s, id = s ++ [63] := by
      rw [List.getLast?_eq_some_iff] at hl
      exact hl
    obtain ⟨h1, h2⟩ := h.mark s rfl
    have hs : 0 < s.length := List.length_pos_iff.mpr h1
    rw [if_neg (by simp; omega)]
    have : (s ++ [63]).take ((s ++ [63]).length - 2) = s.dropLast := by
      rw [List.dropLast_eq_take, List.take_append_of_le_length (by simp)]
      simp
    rw [this, lastIndex_none _ _ h2]
  · rfl

end Verif.Fragment
