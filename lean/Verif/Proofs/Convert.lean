import Verif.Spec.Convert

/-! Proofs for C44. -/

namespace Verif.Convert

open Spec

/-! ### Numbers -/

theorem parseLoop_format (max : Nat) (n : Nat) (hn : n ≤ max) (rest : Text) :
    parseLoop max 0 (formatNat n ++ rest) = parseLoop max n rest := by
  induction n using Nat.strongRecOn generalizing rest with
  | ind n ih =>
    rw [formatNat]
    split
    · simp only [List.cons_append, List.nil_append, parseLoop]
      rw [if_neg (by omega), if_neg (by omega)]
      congr 1
      omega
    · rw [List.append_assoc, ih (n / 10) (by omega) (by omega)]
      simp only [List.cons_append, List.nil_append, parseLoop]
      rw [if_neg (by omega), if_neg (by omega)]
      congr 1
      omega

theorem formatNat_head (n : Nat) : ∃ (c : Nat) (s : Text), formatNat n = c :: s ∧ 48 ≤ c ∧ c ≤ 57 := by
  induction n using Nat.strongRecOn with
  | ind n ih =>
    rw [formatNat]
    split
    · exact ⟨_, _, rfl, by omega, by omega⟩
    · obtain ⟨c, s, h1, h2, h3⟩ := ih (n / 10) (by omega)
      exact ⟨c, s ++ [48 + n % 10], by rw [h1]; rfl, h2, h3⟩

theorem parseUint_format (bits n : Nat) (h : n < 2 ^ bits) : parseUint bits (formatNat n) = some n := by
  obtain ⟨c, s, h1, -, -⟩ := formatNat_head n
  have := parseLoop_format (2 ^ bits - 1) n (by omega) []
  simp only [List.append_nil, parseLoop] at this
  rw [parseUint, if_neg (by simp [h1]), this]

theorem parseInt_format (bits : Nat) (hb : 1 ≤ bits) (i : Int) (h : Signed bits i) : parseInt bits (formatInt i) = i := by
  obtain ⟨h1, h2⟩ := h
  have hp : 2 ^ bits = 2 * 2 ^ (bits - 1) := by
    obtain ⟨k, rfl⟩ : ∃ k, bits = k + 1 := ⟨bits - 1, by omega⟩
    rw [Nat.pow_succ]; simp [Nat.mul_comm]
  have hpos : 0 < 2 ^ (bits - 1) := Nat.pos_of_ne_zero (by simp)
  have hcast : ((2 ^ (bits - 1) : Nat) : Int) = 2 ^ (bits - 1) := by simp
  generalize hk : 2 ^ (bits - 1) = k at *
  rw [← hcast] at h1 h2
  have hu := parseUint_format bits i.natAbs (by omega)
  obtain ⟨c, s, e1, e2, e3⟩ := formatNat_head i.natAbs
  rw [formatInt]
  split
  · rename_i hneg
    simp only [parseInt, List.head?_cons, true_or, if_true, List.tail_cons, hu, hk]
    rw [if_neg (by omega)]
    omega
  · rename_i hneg
    have hh : (formatNat i.natAbs).head? = some c := by rw [e1]; rfl
    simp only [parseInt, hh, Option.some.injEq]
    rw [if_neg (by omega)]
    simp only [hu, hk]
    rw [if_neg (by omega), if_neg (by omega)]
    omega

theorem parseBool_format (b : Bool) : parseBool (formatBool b) = b := by cases b <;> decide

/-! ### Times -/

theorem pad_two (n : Nat) (h : n < 100) : pad 2 n = [48 + n / 10, 48 + n % 10] := by
  simp only [pad]
  rw [formatNat]
  split
  · rw [show n / 10 = 0 by omega, show n % 10 = n by omega]
    rfl
  · rw [formatNat, if_pos (by omega)]
    simp

theorem pad_three (n : Nat) (h : n < 1000) : pad 3 n = [48 + n / 100, 48 + n / 10 % 10, 48 + n % 10] := by
  simp only [pad]
  rw [formatNat]
  split
  · rw [show n / 100 = 0 by omega, show n / 10 % 10 = 0 by omega, show n % 10 = n by omega]
    rfl
  · rw [formatNat]
    split
    · rw [show n / 100 = 0 by omega, show n / 10 % 10 = n / 10 by omega]
      rfl
    · rw [formatNat, if_pos (by omega)]
      simp [show n / 10 / 10 = n / 100 by omega]

theorem pad_four (n : Nat) (h : n < 10000) :
    pad 4 n = [48 + n / 1000, 48 + n / 100 % 10, 48 + n / 10 % 10, 48 + n % 10] := by
  simp only [pad]
  rw [formatNat]
  split
  · rw [show n / 1000 = 0 by omega, show n / 100 % 10 = 0 by omega, show n / 10 % 10 = 0 by omega, show n % 10 = n by omega]
    rfl
  · rw [formatNat]
    split
    · rw [show n / 1000 = 0 by omega, show n / 100 % 10 = 0 by omega, show n / 10 % 10 = n / 10 by omega]
      rfl
    · rw [formatNat]
      split
      · rw [show n / 1000 = 0 by omega, show n / 100 % 10 = n / 10 / 10 by omega]
        rfl
      · rw [formatNat, if_pos (by omega)]
        simp [show n / 10 / 10 = n / 100 by omega, show n / 100 / 10 = n / 1000 by omega]

theorem digit (d : Nat) (h : d < 10) : isDigit (48 + d) = true := by
  simp [isDigit]; omega

theorem getyear_pad (n : Nat) (h : n < 10000) (s : Text) : getyear (pad 4 n ++ s) = some (n, s) := by
  rw [pad_four n h]
  simp only [List.cons_append, List.nil_append, getyear, digit (n / 1000) (by omega), digit (n / 100 % 10) (by omega),
    digit (n / 10 % 10) (by omega), digit (n % 10) (by omega), Bool.and_self, if_true, Option.some.injEq, Prod.mk.injEq, and_true]
  omega

theorem getnum_pad (fixed : Bool) (n : Nat) (h : n < 100) (s : Text) : getnum fixed (pad 2 n ++ s) = some (n, s) := by
  rw [pad_two n h]
  simp only [List.cons_append, List.nil_append, getnum, digit (n / 10) (by omega), digit (n % 10) (by omega), if_true,
    Option.some.injEq, Prod.mk.injEq, and_true]
  omega

theorem getfraction_format (nano : Nat) (h : nano < 1000000000) (s : Text) :
    getfraction (formatFraction nano ++ 90 :: s) = (nano / 1000000 * 1000000, 90 :: s) := by
  have hlt : nano / 1000000 < 1000 := by omega
  unfold formatFraction
  generalize nano / 1000000 = n at *
  rw [pad_three n hlt]
  have ha : n / 100 < 10 := by omega
  have hb : n / 10 % 10 < 10 := by omega
  have hc : n % 10 < 10 := by omega
  have hn : n = n / 100 * 100 + n / 10 % 10 * 10 + n % 10 := by omega
  generalize n / 100 = a at *
  generalize n / 10 % 10 = b at *
  generalize n % 10 = c at *
  have h90 : isDigit 90 = false := rfl
  by_cases c0 : c = 0
  · by_cases b0 : b = 0
    · by_cases a0 : a = 0
      · subst c0 b0 a0 hn
        rfl
      · subst c0 b0
        simp [a0, getfraction, digit a ha, h90, List.takeWhile, List.dropWhile, natOf]
        omega
    · subst c0
      simp [b0, getfraction, digit a ha, digit b hb, h90, List.takeWhile, List.dropWhile, natOf]
      omega
  · simp [c0, getfraction, digit a ha, digit b hb, digit c hc, h90, List.takeWhile, List.dropWhile, natOf]
    omega

theorem parse_format_time (t : Time) (h : isTime t) :
    parseTime (formatTime t) = { t with nano := t.nano / 1000000 * 1000000, offset := 0 } := by
  obtain ⟨h1, h2, h3, h4, h5, h6, h7, h8, h9⟩ := h
  have hd : t.day < 100 := by
    have : t.day ≤ 31 := by
      refine Nat.le_trans h5 ?_
      split
      · split <;> omega
      · split <;> omega
    omega
  have hdays : ¬ daysIn t.month t.year < t.day := by
    simp only [daysIn, isLeap]
    simp only [List.mem_cons, List.not_mem_nil, or_false] at h5
    simp only [Bool.and_eq_true, Bool.or_eq_true, decide_eq_true_eq]
    omega
  simp only [parseTime, parseTime?, formatTime, List.append_assoc]
  rw [getyear_pad t.year (by omega)]
  simp only [List.cons_append, List.nil_append, Option.bind_eq_bind, Option.bind_some, skip, if_true]
  rw [getnum_pad true t.month (by omega)]
  simp only [Option.bind_some, skip, if_true]
  rw [if_neg (by omega)]
  simp only [Option.pure_def, Option.bind_some]
  rw [getnum_pad true t.day hd]
  simp only [Option.bind_some, skip, if_true]
  rw [getnum_pad false t.hour (by omega)]
  simp only [Option.bind_some, skip, if_true]
  rw [if_neg (by omega)]
  try simp only [Option.bind_some]
  rw [getnum_pad true t.minute (by omega)]
  simp only [Option.bind_some, skip, if_true]
  rw [if_neg (by omega)]
  try simp only [Option.bind_some]
  rw [getnum_pad true t.second (by omega)]
  simp only [Option.bind_some]
  rw [if_neg (by omega)]
  try simp only [Option.bind_some]
  rw [getfraction_format t.nano h9 []]
  simp only [Option.bind_some, skip, if_true, ne_eq, not_true_eq_false, if_false]
  rw [if_neg (by omega)]
  rfl

/-! ### Any text -/

theorem parseLoop_le (max n : Nat) (s : Text) (m : Nat) (hn : n ≤ max) (h : parseLoop max n s = some m) : m ≤ max := by
  induction s generalizing n with
  | nil => simp only [parseLoop, Option.some.injEq] at h; omega
  | cons c s ih =>
    simp only [parseLoop] at h
    split at h
    · simp at h
    · split at h
      · simp only [Option.some.injEq] at h; omega
      · exact ih _ (by omega) h

theorem parseInt_range (bits : Nat) (s : Text) : Signed bits (parseInt bits s) := by
  have hpos : 0 < 2 ^ (bits - 1) := Nat.pos_of_ne_zero (by simp)
  have hcast : ((2 ^ (bits - 1) : Nat) : Int) = 2 ^ (bits - 1) := by simp
  simp only [Signed, parseInt, ← hcast]
  generalize 2 ^ (bits - 1) = k at *
  split
  · omega
  · split
    · split <;> omega
    · split <;> omega

theorem parseUint_range (bits : Nat) (s : Text) : (parseUint bits s).getD 0 < 2 ^ bits := by
  have hpos : 0 < 2 ^ bits := Nat.pos_of_ne_zero (by simp)
  cases h : parseUint bits s with
  | none => simpa using hpos
  | some n =>
    simp only [parseUint] at h
    split at h
    · simp at h
    · have := parseLoop_le _ _ _ _ (Nat.zero_le _) h
      simp only [Option.getD_some]
      omega

theorem natOf_lt (s : Text) (hs : ∀ c ∈ s, c ≤ 57) : natOf s < 10 ^ s.length := by
  have : ∀ (s : Text) (n k : Nat), (∀ c ∈ s, c ≤ 57) → n < k → s.foldl (fun n c => n * 10 + (c - 48)) n < k * 10 ^ s.length := by
    intro s
    induction s with
    | nil => intro n k _ h; simpa using h
    | cons c s ih =>
      intro n k hs h
      simp only [List.foldl_cons, List.length_cons]
      have hc := hs c (by simp)
      have := ih (n * 10 + (c - 48)) (k * 10) (fun c hc => hs c (by simp [hc])) (by omega)
      rw [Nat.pow_succ, Nat.mul_comm (10 ^ s.length) 10, ← Nat.mul_assoc]
      exact this
  have h := this s 0 1 hs (by omega)
  simpa [natOf] using h

theorem mem_takeWhile_digit (l : Text) (x : Nat) (h : x ∈ l.takeWhile isDigit) : isDigit x = true := by
  induction l with
  | nil => simp at h
  | cons a l ih =>
    simp only [List.takeWhile_cons] at h
    split at h
    · rcases List.mem_cons.1 h with rfl | h
      · assumption
      · exact ih h
    · simp at h

theorem getfraction_lt (s : Text) : (getfraction s).1 < 1000000000 := by
  unfold getfraction
  split
  · split
    · rename_i c s hc
      generalize hl : (List.take 9 (List.takeWhile isDigit (c :: s))) = l
      have hlen : l.length ≤ 9 := by rw [← hl]; simp only [List.length_take]; omega
      have hdig : ∀ c ∈ l, c ≤ 57 := by
        intro x hx
        rw [← hl] at hx
        have := mem_takeWhile_digit _ _ (List.mem_of_mem_take hx)
        simp only [isDigit, Bool.and_eq_true, decide_eq_true_eq] at this
        exact this.2
      have h := natOf_lt l hdig
      simp only
      calc natOf l * 10 ^ (9 - l.length) < 10 ^ l.length * 10 ^ (9 - l.length) :=
            Nat.mul_lt_mul_of_pos_right h (Nat.pos_of_ne_zero (by simp))
        _ = 10 ^ 9 := by rw [← Nat.pow_add]; congr 1; omega
    · simp
  · simp

theorem getyear_le (s : Text) (y : Nat) (r : Text) (h : getyear s = some (y, r)) : y ≤ 9999 := by
  unfold getyear at h
  split at h
  · split at h
    · rename_i hd
      simp only [isDigit, Bool.and_eq_true, decide_eq_true_eq, Option.some.injEq, Prod.mk.injEq] at hd h
      omega
    · simp at h
  · simp at h

theorem parseTime_valid (s : Text) : isTime (parseTime s) := by
  unfold parseTime
  cases h : parseTime? s with
  | none => decide
  | some t =>
    simp only [Option.getD_some]
    simp only [parseTime?, Option.bind_eq_bind, Option.bind_none, Option.bind_eq_some_iff, Option.pure_def, Prod.exists,
      Option.ite_none_left_eq_some] at h
    obtain ⟨y, s1, hy, s2, -, m, s3, -, hm, s4, -, d, s5, -, s6, -, hh, s7, -, hhh, s8, -, mi, s9, -, hmi, s10, -, se, s11, -, hse,
      s12, -, hs12, hd, h⟩ := h
    simp only [Option.some.injEq] at h
    subst h
    have hy' := getyear_le _ _ _ hy
    have hn := getfraction_lt s11
    simp only [isTime]
    have hdays : d ≤ daysIn m y := by omega
    simp only [daysIn, isLeap] at hdays
    simp only [List.mem_cons, List.not_mem_nil, or_false]
    simp only [Bool.and_eq_true, Bool.or_eq_true, decide_eq_true_eq] at hdays
    refine ⟨hy', by omega, by omega, by omega, hdays, by omega, by omega, by omega, hn⟩

theorem parseLoop_digits (max : Nat) (ds : Text) (n : Nat) (hd : ∀ c ∈ ds, 48 ≤ c ∧ c ≤ 57)
    (hm : ds.foldl (fun n c => 10 * n + (c - 48)) n ≤ max) : parseLoop max n ds = some (ds.foldl (fun n c => 10 * n + (c - 48)) n) := by
  have mono : ∀ (ds : Text) (n : Nat), n ≤ ds.foldl (fun n c => 10 * n + (c - 48)) n := by
    intro ds
    induction ds with
    | nil => intro n; simp
    | cons c ds ih =>
      intro n
      have := ih (10 * n + (c - 48))
      simp only [List.foldl_cons]
      omega
  induction ds generalizing n with
  | nil => simp [parseLoop]
  | cons c ds ih =>
    have hc := hd c (by simp)
    simp only [List.foldl_cons] at hm ⊢
    have hle := mono ds (10 * n + (c - 48))
    simp only [parseLoop]
    rw [if_neg (by omega), if_neg (by omega), Nat.mul_comm n 10]
    exact ih _ (fun c hc => hd c (by simp [hc])) hm

theorem parseInt_denotes (bits : Nat) (hb : 1 ≤ bits) (s : Text) (i : Int) (hd : Denotes s i) (h : Signed bits i) :
    parseInt bits s = i := by
  obtain ⟨ds, h0, hds, hcase⟩ := hd
  obtain ⟨h1, h2⟩ := h
  have hp : 2 ^ bits = 2 * 2 ^ (bits - 1) := by
    obtain ⟨k, rfl⟩ : ∃ k, bits = k + 1 := ⟨bits - 1, by omega⟩
    rw [Nat.pow_succ]; simp [Nat.mul_comm]
  have hpos : 0 < 2 ^ (bits - 1) := Nat.pos_of_ne_zero (by simp)
  have hcast : ((2 ^ (bits - 1) : Nat) : Int) = 2 ^ (bits - 1) := by simp
  generalize hk : 2 ^ (bits - 1) = k at *
  rw [← hcast] at h1 h2
  have hu : parseUint bits ds = some (decimal ds) := by
    rw [parseUint, if_neg h0]
    exact parseLoop_digits _ ds 0 hds (by change decimal ds ≤ _; omega)
  rcases hcase with ⟨hs | hs, hi⟩ | ⟨hs, hi⟩
  · subst hs
    cases s with
    | nil => exact absurd rfl h0
    | cons c s =>
      have hc := hds c (by simp)
      simp only [parseInt, List.head?_cons, Option.some.injEq]
      rw [if_neg (by omega)]
      simp only [hu, hk]
      rw [if_neg (by omega), if_neg (by omega)]
      omega
  · subst hs
    simp only [parseInt, List.head?_cons, Option.some.injEq, or_true, if_true, List.tail_cons, hu, hk]
    rw [if_neg (by omega), if_neg (by omega)]
    omega
  · subst hs
    simp only [parseInt, List.head?_cons, true_or, if_true, List.tail_cons, hu, hk]
    rw [if_neg (by omega)]
    omega

end Verif.Convert
