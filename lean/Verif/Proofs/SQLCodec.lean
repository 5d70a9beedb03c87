import Verif.Spec.SQLCodec
import Verif.Proofs.Convert

/-! Proofs for C59: names, numbers, dates, the values of a column. -/

namespace Verif.SQLCodec

open Spec
open Verif.Convert (Text Time Value formatNat pad getyear getnum getfraction skip isDigit natOf daysIn isLeap getyear_pad getnum_pad digit)
open Verif.Convert.Spec (Signed isTime)

variable {F : Type}

/-! ### Kinds -/

theorem basicKind_column (s : String) : (basicKind s).isColumn = true ∧ (basicKind s).isTable = false := by
  unfold basicKind
  repeat' split
  all_goals exact ⟨rfl, rfl⟩

theorem isColumn_iff (f : Feature F) : (kindOf f).isColumn = true ↔ isSaved f ∧ f.many = false := by
  have := basicKind_column f.typeName
  unfold kindOf isSaved isParent
  cases f.transient <;> cases f.isReference <;> cases f.containment <;> cases f.container <;> cases f.many <;> cases f.resolveProxies <;>
    cases f.isEnum <;> first | (simp [this]; done) | (simp [Kind.isColumn]; done)

theorem isTable_iff (f : Feature F) : (kindOf f).isTable = true ↔ isSaved f ∧ f.many = true := by
  have := basicKind_column f.typeName
  unfold kindOf isSaved isParent
  cases f.transient <;> cases f.isReference <;> cases f.containment <;> cases f.container <;> cases f.many <;> cases f.resolveProxies <;>
    cases f.isEnum <;> first | (simp [this]; done) | (simp [Kind.isTable]; done)

theorem isTransient_saved (f : Feature F) (h : isSaved f) (hc : f.containment = true → f.container = false) : isTransient f = false := by
  revert h hc
  unfold isTransient isSaved isParent
  cases f.transient <;> cases f.isReference <;> cases f.containment <;> cases f.container <;> simp

/-! ### Numbers -/

theorem formatNat_digits (n : Nat) : ∀ c ∈ formatNat n, isDigit c = true := by
  fun_induction formatNat n with
  | case1 n h =>
    intro c hc
    simp only [List.mem_singleton] at hc
    exact hc ▸ digit n h
  | case2 n h ih =>
    intro c hc
    simp only [List.mem_append, List.mem_singleton] at hc
    rcases hc with hc | rfl
    · exact ih c hc
    · exact digit _ (Nat.mod_lt _ (by omega))

theorem natOf_formatNat (n : Nat) : natOf (formatNat n) = n := by
  fun_induction formatNat n with
  | case1 n h => simp [natOf]
  | case2 n h ih =>
    simp only [natOf, List.foldl_append, List.foldl_cons, List.foldl_nil] at ih ⊢
    rw [ih]
    omega

theorem formatNat_ne (n : Nat) : formatNat n ≠ [] := by
  rw [formatNat]
  split <;> simp

theorem formatNat_sign (n : Nat) : (formatNat n).head? ≠ some 45 ∧ (formatNat n).head? ≠ some 43 := by
  have h := formatNat_digits n
  have hne := formatNat_ne n
  generalize formatNat n = l at *
  cases l with
  | nil => exact absurd rfl hne
  | cons c s =>
    have := h c (by simp)
    simp only [isDigit, Bool.and_eq_true, decide_eq_true_eq] at this
    simp only [List.head?_cons, ne_eq, Option.some.injEq]
    omega

theorem parseInt64_format (n : Nat) (h : n < 9223372036854775808) : parseInt64 (formatNat n) = some (n : Int) := by
  have hs := formatNat_sign n
  have hd : (formatNat n).any (fun c => !isDigit c) = false := by
    rw [List.any_eq_false]
    intro c hc
    simp [formatNat_digits n c hc]
  simp only [parseInt64, hs.1, hs.2, false_or, if_false, formatNat_ne, hd, Bool.false_eq_true, natOf_formatNat]
  rw [if_pos (by omega)]

theorem parseInt64_uri (env : Env F) (u : Text) (h : Readable env u) :
    env.relativize u ≠ [] ∧ parseInt64 (env.relativize u) = none ∧ env.resolve (env.relativize u) = u := by
  obtain ⟨h1, c, s, h2, h3⟩ := h
  rw [h2]
  refine ⟨by simp, ?_, h2 ▸ h1⟩
  simp only [parseInt64, List.head?_cons, Option.some.injEq, List.tail_cons]
  rw [if_pos]
  rcases h3 with ⟨d, hd, hn⟩ | ⟨hc, h3⟩
  · refine Or.inr ?_
    rw [List.any_eq_true]
    refine ⟨d, ?_, ?_⟩
    · split
      · exact hd
      · exact List.mem_cons_of_mem _ hd
    · simp only [isDigit]
      simp
      omega
  · by_cases hsg : c = 45 ∨ c = 43
    · rw [if_pos hsg]
      rcases h3 with h3 | h3
      · omega
      · exact Or.inl h3
    · rw [if_neg hsg]
      refine Or.inr ?_
      rw [List.any_eq_true]
      refine ⟨c, by simp, ?_⟩
      simp only [isDigit]
      simp
      omega

/-! ### Dates -/

theorem getzone_format (t : Time) (hm : t.offset % 60 = 0) (hl : t.offset.natAbs < 86400) :
    getzone (if t.offset = 0 then [90]
      else (if t.offset ≤ -60 then 45 else 43) :: pad 2 (t.offset.natAbs / 60 / 60) ++ [58] ++ pad 2 (t.offset.natAbs / 60 % 60)) =
      some (t.offset, []) := by
  split
  · rename_i h
    simp [getzone, h]
  · have h1 := getnum_pad true (t.offset.natAbs / 60 / 60) (by omega) ([58] ++ pad 2 (t.offset.natAbs / 60 % 60))
    have h2 := getnum_pad true (t.offset.natAbs / 60 % 60) (by omega) []
    simp only [List.append_nil, List.cons_append, List.nil_append, List.append_assoc] at h1 h2 ⊢
    split
    · simp only [getzone, or_true, if_true, h1, Option.bind_eq_bind, Option.bind_some, skip, h2]
      rw [if_neg (by omega)]
      simp
      omega
    · simp only [getzone, true_or, if_true, h1, Option.bind_eq_bind, Option.bind_some, skip, h2]
      rw [if_neg (by omega)]
      simp
      omega

theorem getfraction_zone (t : Time) :
    getfraction (if t.offset = 0 then [90]
      else (if t.offset ≤ -60 then 45 else 43) :: pad 2 (t.offset.natAbs / 60 / 60) ++ [58] ++ pad 2 (t.offset.natAbs / 60 % 60)) =
      (0, if t.offset = 0 then [90]
      else (if t.offset ≤ -60 then 45 else 43) :: pad 2 (t.offset.natAbs / 60 / 60) ++ [58] ++ pad 2 (t.offset.natAbs / 60 % 60)) := by
  split
  · rfl
  · split <;> simp [getfraction]

theorem parseDate_format (t : Time) (h : isTime t) (hn : t.nano = 0) (hm : t.offset % 60 = 0) (hl : t.offset.natAbs < 86400) :
    parseDate (formatDate t) = some t := by
  have hz := getzone_format t hm hl
  have hf := getfraction_zone t
  obtain ⟨h1, h2, h3, h4, h5, h6, h7, h8, h9⟩ := h
  have hd : t.day < 100 := by
    have : t.day ≤ 31 := by
      refine Nat.le_trans h5 ?_
      split
      · split <;> omega
      · split <;> omega
    omega
  have hdays : ¬ daysIn t.month t.year < t.day := by
    simp only [daysIn, isLeap]
    simp only [List.mem_cons, List.not_mem_nil, or_false] at h5
    simp only [Bool.and_eq_true, Bool.or_eq_true, decide_eq_true_eq]
    omega
  simp only [parseDate, formatDate]
  generalize (if t.offset = 0 then [90]
      else (if t.offset ≤ -60 then 45 else 43) :: pad 2 (t.offset.natAbs / 60 / 60) ++ [58] ++ pad 2 (t.offset.natAbs / 60 % 60)) = z at *
  simp only [List.append_assoc]
  rw [getyear_pad t.year (by omega)]
  simp only [List.cons_append, List.nil_append, Option.bind_eq_bind, Option.bind_some, skip, if_true]
  rw [getnum_pad true t.month (by omega)]
  simp only [Option.bind_some, skip, if_true]
  rw [if_neg (by omega)]
  simp only [Option.pure_def, Option.bind_some]
  rw [getnum_pad true t.day hd]
  simp only [Option.bind_some, skip, if_true]
  rw [getnum_pad false t.hour (by omega)]
  simp only [Option.bind_some, skip, if_true]
  rw [if_neg (by omega)]
  try simp only [Option.bind_some]
  rw [getnum_pad true t.minute (by omega)]
  simp only [Option.bind_some, skip, if_true]
  rw [if_neg (by omega)]
  try simp only [Option.bind_some]
  rw [getnum_pad true t.second (by omega)]
  simp only [Option.bind_some]
  rw [if_neg (by omega)]
  try simp only [Option.bind_some]
  rw [hf]
  simp only [hz, Option.bind_some, ne_eq, not_true_eq_false, if_false]
  rw [if_neg (by omega)]
  cases t
  simp_all

/-! ### Data -/

theorem wrap_16 (i : Int) (h : Signed 16 i) : wrap 16 i = i := by
  simp only [Signed, wrap] at *
  omega

theorem wrap_32 (i : Int) (h : Signed 32 i) : wrap 32 i = i := by
  simp only [Signed, wrap] at *
  omega

theorem kindOf_attribute (f : Feature F) (ht : f.transient = false) (hr : f.isReference = false) :
    kindOf f = if f.many = true then .dataList else if f.isEnum = true then .enum else basicKind f.typeName := by
  simp [kindOf, ht, hr]

theorem data_spec (env : Env F) (g : Graph F) (f : Feature F) (v : Value F) (ht : f.transient = false) (hr : f.isReference = false)
    (he : f.many = true ∨ f.isEnum = false) (h : DataFits env f v) :
    ∃ cell : Cell F, (∀ (enc : St F → Nat → Option Nat → Option (St F × Nat)) (st : St F) (id : Nat),
        encodeElem env g enc st id f (kindOf f) (.data v) = some (st, cell)) ∧
      ∀ (enums : List (Nat × Text)) (n : Nat), decodeCell env enums n f (kindOf f) cell = some (some (.data v)) := by
  rw [kindOf_attribute f ht hr]
  unfold DataFits at h
  by_cases hm : f.many = true
  · rw [if_pos hm] at h ⊢
    exact ⟨_, fun _ _ _ => rfl, fun _ _ => by simp [decodeCell, h]⟩
  · have he := he.resolve_left hm
    rw [if_neg hm, he] at h ⊢
    simp only [Bool.false_eq_true, if_false] at h ⊢
    unfold basicKind
    by_cases h1 : f.typeName ∈ ["float64", "java.lang.Double", "double"]
    · rw [if_pos h1] at h ⊢
      obtain ⟨x, rfl, hx⟩ := h
      exact ⟨.real x, fun _ _ _ => by simp [encodeElem, bind, hx], fun _ _ => by simp [decodeCell]⟩
    rw [if_neg h1] at h ⊢
    by_cases h1 : f.typeName ∈ ["float32", "java.lang.Float", "float"]
    · rw [if_pos h1] at h ⊢
      obtain ⟨x, rfl, hx, hx2⟩ := h
      exact ⟨.real x, fun _ _ _ => by simp [encodeElem, bind, hx], fun _ _ => by simp [decodeCell, hx2]⟩
    rw [if_neg h1] at h ⊢
    by_cases h1 : f.typeName ∈ ["int", "java.lang.Integer"]
    · rw [if_pos h1] at h ⊢
      obtain ⟨i, rfl⟩ := h
      exact ⟨.int i, fun _ _ _ => by simp [encodeElem, bind], fun _ _ => by simp [decodeCell]⟩
    rw [if_neg h1] at h ⊢
    by_cases h1 : f.typeName ∈ ["int64", "java.lang.Long", "java.math.BigInteger", "long"]
    · rw [if_pos h1] at h ⊢
      obtain ⟨i, rfl⟩ := h
      exact ⟨.int i, fun _ _ _ => by simp [encodeElem, bind], fun _ _ => by simp [decodeCell]⟩
    rw [if_neg h1] at h ⊢
    by_cases h1 : f.typeName = "int32"
    · rw [if_pos h1] at h
      rw [if_pos (by simp [h1])]
      obtain ⟨i, rfl, hi⟩ := h
      exact ⟨.int i, fun _ _ _ => by simp [encodeElem, bind], fun _ _ => by simp [decodeCell, wrap_32 i hi]⟩
    rw [if_neg h1] at h
    rw [if_neg (by simp [h1])]
    by_cases h1 : f.typeName ∈ ["int16", "java.lang.Short", "short"]
    · rw [if_pos h1] at h ⊢
      obtain ⟨i, rfl, hi⟩ := h
      exact ⟨.int i, fun _ _ _ => by simp [encodeElem, bind], fun _ _ => by simp [decodeCell, wrap_16 i hi]⟩
    rw [if_neg h1] at h ⊢
    by_cases h1 : f.typeName = "byte"
    · rw [if_pos h1] at h
      rw [if_pos (by simp [h1])]
      obtain ⟨i, rfl, hi⟩ := h
      exact ⟨.int i, fun _ _ _ => by simp [encodeElem, bind], fun _ _ => by simp [decodeCell]; omega⟩
    rw [if_neg h1] at h
    rw [if_neg (by simp [h1])]
    by_cases h1 : f.typeName ∈ ["bool", "java.lang.Boolean", "boolean"]
    · rw [if_pos h1] at h ⊢
      obtain ⟨b, rfl⟩ := h
      exact ⟨.int (if b then 1 else 0), fun _ _ _ => by simp [encodeElem, bind], fun _ _ => by cases b <;> simp [decodeCell]⟩
    rw [if_neg h1] at h ⊢
    by_cases h1 : f.typeName ∈ ["string", "java.lang.String"]
    · rw [if_pos h1] at h ⊢
      obtain ⟨s, rfl⟩ := h
      exact ⟨.text s, fun _ _ _ => by simp [encodeElem, bind], fun _ _ => by simp [decodeCell]⟩
    rw [if_neg h1] at h ⊢
    by_cases h1 : f.typeName ∈ ["[]byte", "java.util.ByteArray"]
    · rw [if_pos h1] at h ⊢
      obtain ⟨s, rfl⟩ := h
      exact ⟨.blob s, fun _ _ _ => by simp [encodeElem, bind], fun _ _ => by simp [decodeCell]⟩
    rw [if_neg h1] at h ⊢
    by_cases h1 : f.typeName ∈ ["*time/time.Time", "java.util.Date"]
    · rw [if_pos h1] at h ⊢
      obtain ⟨t, rfl, t1, t2, t3, t4⟩ := h
      exact ⟨.text (formatDate t), fun _ _ _ => by simp [encodeElem], fun _ _ => by simp [decodeCell, parseDate_format t t1 t2 t3 t4]⟩
    rw [if_neg h1] at h ⊢
    exact ⟨_, fun _ _ _ => rfl, fun _ _ => by simp [decodeCell, h]⟩

/-- what is read in a column that is NULL -/
theorem null_spec (env : Env F) (f : Feature F) (ht : f.transient = false) (hm : f.many = false)
    (hp : ¬ isParent f) (hr : f.isReference = true → f.default = none) (hz : f.isReference = false → f.default = zeroOf env f) :
    ∃ r : Option (Elem Ref F), (∀ (enums : List (Nat × Text)) (n : Nat), decodeCell env enums n f (kindOf f) .null = some r) ∧
      (r.map fun e => Val.one (some e)).getD (defaultVal f) = .one (f.default.map .data) := by
  by_cases hrf : f.isReference = true
  · have hd := hr hrf
    refine ⟨none, ?_, by simp [defaultVal, hm, hd]⟩
    intro enums n
    have : f.containment = true ∨ f.container = false := by
      rcases h : f.containment <;> rcases h' : f.container <;> simp
      exact hp ⟨hrf, h, h'⟩
    simp only [kindOf, ht, hrf, hm, if_true, Bool.false_eq_true, if_false]
    rcases this with h | h
    · simp [h, decodeCell]
    · cases f.containment <;> cases f.resolveProxies <;> simp [h, decodeCell]
  · have hrf : f.isReference = false := by simpa using hrf
    have hd := hz hrf
    rw [kindOf_attribute f ht hrf, hm]
    simp only [Bool.false_eq_true, if_false]
    unfold zeroOf at hd
    by_cases he : f.isEnum = true
    · refine ⟨f.default.map .data, fun _ _ => by simp [he, decodeCell], ?_⟩
      cases h : f.default <;> simp [defaultVal, hm, h]
    rw [if_neg he] at hd ⊢
    unfold basicKind
    by_cases h1 : f.typeName ∈ ["float64", "java.lang.Double", "double"]
    · rw [if_pos h1] at hd ⊢
      exact ⟨_, fun _ _ => rfl, by simp [hd]⟩
    rw [if_neg h1] at hd ⊢
    by_cases h1 : f.typeName ∈ ["float32", "java.lang.Float", "float"]
    · rw [if_pos h1] at hd ⊢
      exact ⟨_, fun _ _ => rfl, by simp [hd]⟩
    rw [if_neg h1] at hd ⊢
    by_cases h1 : f.typeName ∈ ["int", "java.lang.Integer"]
    · rw [if_pos h1] at hd ⊢
      exact ⟨_, fun _ _ => rfl, by simp [hd]⟩
    rw [if_neg h1] at hd ⊢
    by_cases h1 : f.typeName ∈ ["int64", "java.lang.Long", "java.math.BigInteger", "long"]
    · rw [if_pos h1] at hd ⊢
      exact ⟨_, fun _ _ => rfl, by simp [hd]⟩
    rw [if_neg h1] at hd ⊢
    by_cases h1 : f.typeName = "int32"
    · rw [if_pos h1] at hd
      rw [if_pos (by simp [h1])]
      exact ⟨_, fun _ _ => rfl, by simp [hd]⟩
    rw [if_neg h1] at hd
    rw [if_neg (by simp [h1])]
    by_cases h1 : f.typeName ∈ ["int16", "java.lang.Short", "short"]
    · rw [if_pos h1] at hd ⊢
      exact ⟨_, fun _ _ => rfl, by simp [hd]⟩
    rw [if_neg h1] at hd ⊢
    by_cases h1 : f.typeName = "byte"
    · rw [if_pos h1] at hd
      rw [if_pos (by simp [h1])]
      exact ⟨_, fun _ _ => rfl, by simp [hd]⟩
    rw [if_neg h1] at hd
    rw [if_neg (by simp [h1])]
    by_cases h1 : f.typeName ∈ ["bool", "java.lang.Boolean", "boolean"]
    · rw [if_pos h1] at hd ⊢
      exact ⟨_, fun _ _ => rfl, by simp [hd]⟩
    rw [if_neg h1] at hd ⊢
    by_cases h1 : f.typeName ∈ ["string", "java.lang.String"]
    · rw [if_pos h1] at hd ⊢
      exact ⟨_, fun _ _ => rfl, by simp [hd]⟩
    rw [if_neg h1]
    by_cases h1 : f.typeName ∈ ["[]byte", "java.util.ByteArray"]
    · rw [if_pos h1]
      exact ⟨_, fun _ _ => rfl, by simp [defaultVal, hm]⟩
    rw [if_neg h1]
    by_cases h1 : f.typeName ∈ ["*time/time.Time", "java.util.Date"]
    · rw [if_pos h1]
      exact ⟨_, fun _ _ => rfl, by simp [defaultVal, hm]⟩
    rw [if_neg h1]
    exact ⟨_, fun _ _ => rfl, by simp [defaultVal, hm]⟩

/-! ### Names -/

theorem lower_lower (s : Text) : lower (lower s) = lower s := by
  simp only [lower, List.map_map]
  apply List.map_congr_left
  intro c _
  simp only [Function.comp]
  grind

theorem lower_append (a b : Text) : lower (a ++ b) = lower a ++ lower b := by simp [lower]

theorem map_filter_inj {α β : Type} (p : α → Bool) (h : α → β) (l : List α) (hn : ((l.filter p).map h).Nodup) (i j : Nat) (x y : α)
    (hi : l[i]? = some x) (hj : l[j]? = some y) (px : p x = true) (py : p y = true) (hxy : h x = h y) : i = j := by
  induction l generalizing i j with
  | nil => simp at hi
  | cons z l ih =>
    have hn' : ((l.filter p).map h).Nodup := by
      refine List.Nodup.sublist (List.Sublist.map h ?_) hn
      rw [List.filter_cons]
      split
      · exact List.sublist_cons_self _ _
      · exact List.Sublist.refl _
    cases i with
    | zero =>
      simp at hi
      subst hi
      cases j with
      | zero => rfl
      | succ j =>
        simp at hj
        simp only [List.filter_cons, px, if_true, List.map_cons, List.nodup_cons] at hn
        exact absurd (List.mem_map.2 ⟨y, List.mem_filter.2 ⟨List.mem_of_getElem? hj, py⟩, hxy.symm⟩) hn.1
    | succ i =>
      simp at hi
      cases j with
      | zero =>
        simp at hj
        subst hj
        simp only [List.filter_cons, py, if_true, List.map_cons, List.nodup_cons] at hn
        exact absurd (List.mem_map.2 ⟨x, List.mem_filter.2 ⟨List.mem_of_getElem? hi, px⟩, hxy⟩) hn.1
      | succ j =>
        simp at hj
        rw [ih hn' i j hi hj]

theorem flatMap_inj {α β : Type} (l : List α) (h : α → List β) (hn : (l.flatMap h).Nodup) (a b : α) (ha : a ∈ l) (hb : b ∈ l) (x : β)
    (hx : x ∈ h a) (hy : x ∈ h b) : a = b := by
  induction l with
  | nil => simp at ha
  | cons z l ih =>
    simp only [List.flatMap_cons, List.nodup_append] at hn
    obtain ⟨h1, h2, h3⟩ := hn
    rcases List.mem_cons.1 ha with e | ha' <;> rcases List.mem_cons.1 hb with e' | hb'
    · rw [e, e']
    · exact absurd rfl (h3 x (e ▸ hx) x (List.mem_flatMap.2 ⟨b, hb', hy⟩))
    · exact absurd rfl (h3 x (e' ▸ hy) x (List.mem_flatMap.2 ⟨a, ha', hx⟩))
    · exact ih h2 ha' hb'

theorem flatMap_nodup {α β : Type} (l : List α) (h : α → List β) (hn : (l.flatMap h).Nodup) (a : α) (ha : a ∈ l) : (h a).Nodup := by
  induction l with
  | nil => simp at ha
  | cons z l ih =>
    simp only [List.flatMap_cons, List.nodup_append] at hn
    rcases List.mem_cons.1 ha with rfl | ha'
    · exact hn.1
    · exact ih hn.2.1 ha'

theorem listTable_mem (env : Env F) (c i : Nat) (f : Feature F) (hf : (env.features c)[i]? = some f) (ht : (kindOf f).isTable = true) :
    lower (listTable env c f) ∈ tableNames env c := by
  have := (isTable_iff f).1 ht
  refine List.mem_cons_of_mem _ (List.mem_map.2 ⟨f, List.mem_filter.2 ⟨List.mem_of_getElem? hf, by simp [this]⟩, rfl⟩)

theorem listTable_inj (env : Env F) (classes : List Nat) (hn : (classes.flatMap (tableNames env)).Nodup) (c c' i i' : Nat) (f f' : Feature F)
    (hc : c ∈ classes) (hc' : c' ∈ classes) (hf : (env.features c)[i]? = some f) (hf' : (env.features c')[i']? = some f')
    (ht : (kindOf f).isTable = true) (ht' : (kindOf f').isTable = true) (h : listTable env c f = listTable env c' f') :
    c = c' ∧ i = i' := by
  have e : c = c' := flatMap_inj classes _ hn c c' hc hc' _ (listTable_mem env c i f hf ht) (h ▸ listTable_mem env c' i' f' hf' ht')
  subst e
  refine ⟨rfl, ?_⟩
  have hn1 : (tableNames env c).Nodup := flatMap_nodup classes _ hn c hc
  have hn2 := (List.nodup_cons.1 hn1).2
  refine map_filter_inj _ _ _ hn2 i i' f f' hf hf' ?_ ?_ (congrArg lower h)
  · simp [(isTable_iff f).1 ht]
  · simp [(isTable_iff f').1 ht']

theorem classTable_inj (env : Env F) (classes : List Nat) (hn : (classes.flatMap (tableNames env)).Nodup) (c c' : Nat)
    (hc : c ∈ classes) (hc' : c' ∈ classes) (h : classTable env c = classTable env c') : c = c' :=
  flatMap_inj classes _ hn c c' hc hc' (classTable env c) (by simp [tableNames, classTable]) (by
    rw [h]; simp [tableNames, classTable])

end Verif.SQLCodec
