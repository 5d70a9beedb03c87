import Verif.Spec.Immutable

namespace Verif.Immutable
open Spec

/-! ## Replies -/

theorem indexOf_eq (x : Val) : ∀ (d : List Val) (n : Nat),
    indexOf x d n = if Bad d x then none else some (if d.idxOf x < d.length then ((n + d.idxOf x : Nat) : Int) else -1) := by
  intro d
  induction d with
  | nil => intro n; simp [indexOf, Bad]
  | cons y ys ih =>
    intro n
    unfold indexOf
    have hb : Bad (y :: ys) x ↔ goEq y x = none ∨ Bad ys x := by
      unfold Bad goEq
      cases x <;> cases y <;> simp
    cases hq : goEq y x with
    | none => simp [hb, hq]
    | some b =>
      have hqb : b = decide (y = x) := by
        unfold goEq at hq
        split at hq
        · simp at hq
        · simpa using hq.symm
      subst hqb
      by_cases he : y = x
      · subst he
        have hn : ¬ Bad (y :: ys) y := by
          unfold Bad goEq at *
          rintro ⟨⟨l, rfl⟩, _⟩
          simp at hq
        simp [hn]
      · simp only [he, decide_false, ih, hb, hq]
        have : (y == x) = false := by simpa using he
        simp only [List.idxOf_cons, this, cond_false, List.length_cons]
        simp only [reduceCtorEq, false_or]
        split
        · rfl
        · congr 1
          split <;> split <;> first | rfl | (exfalso; omega) | (congr 1; omega)

theorem get_eq (d : List Val) (i : Int) : get d i = at? d i := by
  unfold get at?
  cases i with
  | ofNat n =>
    simp only [Int.ofNat_eq_natCast]
    by_cases h : n < d.length
    · have : ¬ ((n : Int) < 0 ∨ (n : Int) ≥ d.length) := by omega
      simp [h]
    · have : ((n : Int) < 0 ∨ (n : Int) ≥ d.length) := by omega
      simp [h]
  | negSucc n =>
    have : (Int.negSucc n < 0 ∨ Int.negSucc n ≥ d.length) := by omega
    simp [this]

theorem iterate_eq (d : List Val) : ∀ (f c : Nat), d.length ≤ f + c → iterate d f c = d.drop c := by
  intro f
  induction f with
  | zero => intro c h; simp [iterate]; omega
  | succ f ih =>
    intro c h
    unfold iterate
    by_cases hc : c < d.length
    · have hg : get d c = .val d[c] := by
        rw [get_eq]
        simp [at?, hc]
      simp only [hc, if_true, hg]
      rw [ih (c + 1) (by omega)]
      simp
    · simp [hc]; omega

theorem all_eq (d : List Val) : ∀ n, all d n = d.take n := by
  induction d with
  | nil => intro n; simp [all]
  | cons x xs ih => intro n; cases n <;> simp [all, ih]

theorem reply_list (d : List Val) (q : Query) : reply d none q = listReply d q := by
  cases q <;> simp only [reply, listReply]
  · exact get_eq d _
  · simp [List.length_eq_zero_iff]
  · rename_i x
    rw [indexOf_eq]
    by_cases hb : Bad d x
    · simp [hb]
    · have : d.idxOf x < d.length ↔ x ∈ d := List.idxOf_lt_length_iff
      simp only [hb, if_false]
      congr 1
      by_cases hx : x ∈ d
      · simp only [this.mpr hx, if_true, hx, decide_true, decide_eq_true_eq]
        omega
      · simp only [mt this.mp hx, if_false, hx, decide_false]
        decide
  · rename_i x
    rw [indexOf_eq]
    unfold first
    by_cases hb : Bad d x
    · simp [hb]
    · simp [hb]
  · rw [iterate_eq d _ _ (by omega)]; simp
  · rw [all_eq]

/-! ## Go maps -/

theorem mapGet_put (m : List (Val × Val)) (k x k' : Val) :
    mapGet (mapPut m k x) k' = if k = k' then some x else mapGet m k' := by
  induction m with
  | nil => simp [mapPut, mapGet]
  | cons p r ih =>
    obtain ⟨a, b⟩ := p
    unfold mapPut
    split
    · subst_vars
      simp only [mapGet]
      split <;> rfl
    · simp only [mapGet, ih]
      split
      · subst_vars
        split
        · rename_i h _ ; subst_vars; exact absurd rfl h
        · rfl
      · rfl

theorem mapPut_keys (m : List (Val × Val)) (k x : Val) :
    (mapPut m k x).map (·.1) = if k ∈ m.map (·.1) then m.map (·.1) else m.map (·.1) ++ [k] := by
  induction m with
  | nil => simp [mapPut]
  | cons p r ih =>
    obtain ⟨a, b⟩ := p
    unfold mapPut
    split
    · subst_vars; simp
    · rename_i h
      have : k ≠ a := fun e => h e.symm
      simp only [List.map_cons, ih, List.mem_cons, this, false_or]
      split <;> simp

theorem mem_mapGet {m : List (Val × Val)} (hn : (m.map (·.1)).Nodup) (k x : Val) : (k, x) ∈ m ↔ mapGet m k = some x := by
  induction m with
  | nil => simp [mapGet]
  | cons p r ih =>
    obtain ⟨a, b⟩ := p
    simp only [List.map_cons, List.nodup_cons] at hn
    simp only [mapGet, List.mem_cons, Prod.mk.injEq, ih hn.2]
    split
    · subst_vars
      constructor
      · rintro (⟨_, rfl⟩ | h)
        · rfl
        · exact absurd (List.mem_map_of_mem ((ih hn.2).mpr h)) hn.1
      · intro h; left; simpa using h.symm
    · rename_i h
      constructor
      · rintro (⟨rfl, _⟩ | h)
        · exact absurd rfl h
        · exact h
      · exact Or.inr

theorem last_snoc (ps : List (Val × Val)) (k x k' : Val) :
    last? (ps ++ [(k, x)]) k' = if k = k' then some x else last? ps k' := by
  unfold last?
  rw [List.filter_append]
  by_cases h : k = k'
  · simp [h]
  · simp [h]

theorem last_nil (k : Val) : last? [] k = none := rfl

theorem last_some_mem {ps : List (Val × Val)} {k x : Val} (h : last? ps k = some x) : (k, x) ∈ ps := by
  unfold last? at h
  simp only [Option.map_eq_some_iff] at h
  obtain ⟨p, hp, rfl⟩ := h
  have := List.mem_of_getLast? hp
  simp only [List.mem_filter, decide_eq_true_eq] at this
  obtain ⟨h1, rfl⟩ := this
  exact h1

theorem last_isSome (ps : List (Val × Val)) (k : Val) : (last? ps k).isSome = decide (k ∈ ps.map (·.1)) := by
  rw [Bool.eq_iff_iff]
  simp only [decide_eq_true_eq, Option.isSome_iff_exists, List.mem_map]
  constructor
  · rintro ⟨x, h⟩; exact ⟨_, last_some_mem h, rfl⟩
  · rintro ⟨p, hp, rfl⟩
    unfold last?
    cases hq : (ps.filter (fun q => q.1 = p.1)).getLast? with
    | some q => exact ⟨_, rfl⟩
    | none =>
      rw [List.getLast?_eq_none_iff] at hq
      have : p ∈ ps.filter (fun q => q.1 = p.1) := by simp [hp]
      rw [hq] at this
      simp at this

theorem containsValue_eq (x : Val) (m : List (Val × Val)) :
    containsValue x m = if Bad (m.map (·.2)) x then none else some (decide (x ∈ m.map (·.2))) := by
  induction m with
  | nil => simp [containsValue, Bad]
  | cons p r ih =>
    obtain ⟨a, y⟩ := p
    have hb : Bad (y :: r.map (·.2)) x ↔ goEq y x = none ∨ Bad (r.map (·.2)) x := by
      unfold Bad goEq
      cases x <;> cases y <;> simp
    unfold containsValue
    cases hq : goEq y x with
    | none => simp [hb, hq]
    | some b =>
      have hqb : b = decide (y = x) := by
        unfold goEq at hq
        split at hq
        · simp at hq
        · simpa using hq.symm
      subst hqb
      by_cases he : y = x
      · subst he
        have hn : ¬ Bad (y :: r.map (·.2)) y := by
          unfold Bad goEq at *
          rintro ⟨⟨l, rfl⟩, _⟩
          simp at hq
        simp [hn]
      · have he' : (x = y) = False := eq_false (fun e => he e.symm)
        simp only [he, decide_false, ih, List.map_cons, List.mem_cons, he', false_or, hb, hq, reduceCtorEq]

/-- the Go map of a map and the pairs it was made of -/
structure Fits (m ps : List (Val × Val)) : Prop where
  get : ∀ k, mapGet m k = last? ps k
  keys : (m.map (·.1)).Nodup
  hash : ∀ p ∈ ps, hashable p.1 = true

theorem fill_fits (entries : List (Val × Val)) : ∀ (d : List Val) (m ps m' : List (Val × Val)), Fits m ps → fill entries d m = some m' →
    ∃ ps', pairs? entries d = some ps' ∧ Fits m' (ps ++ ps') := by
  intro d
  induction d with
  | nil =>
    intro m ps m' hf h
    simp only [fill, Option.some.injEq] at h
    subst h
    exact ⟨[], by simp [pairs?], by simpa using hf⟩
  | cons x r ih =>
    intro m ps m' hf h
    cases x with
    | nil => simp [fill] at h
    | num n => simp [fill] at h
    | bytes l => simp [fill] at h
    | entry e =>
      simp only [fill] at h
      split at h
      · rename_i k y he
        split at h
        · rename_i hk
          have hf' : Fits (mapPut m k y) (ps ++ [(k, y)]) := by
            refine ⟨fun k' => ?_, ?_, ?_⟩
            · rw [mapGet_put, last_snoc, hf.get]
            · rw [mapPut_keys]
              split
              · exact hf.keys
              · rename_i hn
                rw [List.nodup_append]
                refine ⟨hf.keys, by simp, ?_⟩
                intro a ha b hb
                simp at hb
                subst hb
                rintro rfl
                exact hn ha
            · intro p hp
              simp only [List.mem_append, List.mem_singleton] at hp
              rcases hp with hp | rfl
              · exact hf.hash p hp
              · exact hk
          obtain ⟨ps', h1, h2⟩ := ih _ _ _ hf' h
          refine ⟨(k, y) :: ps', ?_, by simpa using h2⟩
          unfold pairs? at h1 ⊢
          rw [List.mapM_cons]
          simp only [he, h1]
          rfl
        · simp at h
      · simp at h

theorem reply_map {m ps : List (Val × Val)} (hf : Fits m ps) (d : List Val) (q : Query) (hq : q ≠ .toMap) :
    reply d (some m) q = mapReply d ps q := by
  have hh : ∀ k, (hashable k = true) ↔ ¬ ∃ l, k = .bytes l := by
    intro k; cases k <;> simp [hashable]
  cases q with
  | getValue k =>
    simp only [reply, mapReply, hf.get, hh]
    by_cases hk : ∃ l, k = .bytes l <;> simp [hk]
  | containsKey k =>
    simp only [reply, mapReply, hf.get, hh, last_isSome]
    by_cases hk : ∃ l, k = .bytes l <;> simp [hk]
  | containsValue x =>
    simp only [reply, mapReply, containsValue_eq]
    have hm : ∀ y, y ∈ m.map (·.2) ↔ y ∈ (live ps).map (·.2) := by
      intro y
      simp only [List.mem_map, live, List.mem_filter, decide_eq_true_eq]
      constructor
      · rintro ⟨⟨k, z⟩, h, rfl⟩
        have := (mem_mapGet hf.keys k z).mp h
        rw [hf.get] at this
        exact ⟨(k, z), ⟨last_some_mem this, this⟩, rfl⟩
      · rintro ⟨⟨k, z⟩, ⟨_, h⟩, rfl⟩
        refine ⟨(k, z), (mem_mapGet hf.keys k z).mpr ?_, rfl⟩
        rw [hf.get]; exact h
    have hb : Bad (m.map (·.2)) x ↔ Bad ((live ps).map (·.2)) x := by
      unfold Bad
      simp only [hm]
    by_cases h : Bad ((live ps).map (·.2)) x
    · simp only [hb.mpr h, h, if_true, boolAns]
    · simp only [mt hb.mp h, h, if_false, boolAns]
      congr 1
      exact decide_eq_decide.mpr (hm x)
  | toMap => exact absurd rfl hq
  | get i => exact reply_list d (.get i)
  | size => exact reply_list d .size
  | empty => exact reply_list d .empty
  | contains x => exact reply_list d (.contains x)
  | indexOf x => exact reply_list d (.indexOf x)
  | iterate => exact reply_list d .iterate
  | all n => exact reply_list d (.all n)
  | toArray => exact reply_list d .toArray
  | change => exact reply_list d .change

theorem toMap_of {m ps : List (Val × Val)} (hf : Fits m ps) (d : List Val) : MapOf ps (reply d (some m) .toMap) :=
  ⟨m, rfl, hf.keys, fun k x => by rw [mem_mapGet hf.keys, hf.get]⟩

/-! ## Slices -/

theorem cells_store {arrays : List (List Val)} {sl : Slice} {a i : Nat} {x : Val} (h : sl.arr ≠ a ∨ sl.off + sl.len ≤ i) :
    cells (store arrays a i x) sl = cells arrays sl := by
  unfold cells store
  rw [List.getElem?_modify]
  by_cases ha : a = sl.arr
  · have hi : sl.off + sl.len ≤ i := h.resolve_left (fun e => e ha.symm)
    subst ha
    cases arrays[sl.arr]? with
    | none => simp
    | some l =>
      simp only [if_true, Option.map_eq_map, Option.map_some, Option.getD_some]
      apply List.ext_getElem?
      intro n
      simp only [List.getElem?_take, List.getElem?_drop, List.getElem?_set]
      split
      · rw [if_neg (by omega)]
      · rfl
  · simp [ha]

theorem cells_append {arrays : List (List Val)} {sl : Slice} {l : List Val} (h : sl.len = 0 ∨ sl.arr < arrays.length) :
    cells (arrays ++ [l]) sl = cells arrays sl := by
  unfold cells
  rcases h with h | h
  · simp [h]
  · rw [List.getElem?_append_left h]

/-- every array comes from a call of `make`, or from `ToArray` (none) -/
structure Inv (s : State) (b : Books) (grp : Nat → Option Nat) : Prop where
  tags : b.tags.length = s.vars.length
  bound : ∀ (v : Nat) (sl : Slice), s.vars[v]? = some sl → sl.len ≤ sl.cap ∧ (sl.cap = 0 ∨ sl.arr < s.arrays.length)
  own : ∀ (v : Nat) (sl : Slice) (g : Nat), s.vars[v]? = some sl → b.tags[v]? = some (.own g) → sl.cap = 0 ∨ grp sl.arr = some g
  out : ∀ (v : Nat) (sl : Slice), s.vars[v]? = some sl → b.tags[v]? = some .out → sl.cap = 0 ∨
    ((grp sl.arr = none ∨ ∃ g ∈ b.given, grp sl.arr = some g) ∧
      ∀ o ∈ s.objs, o.slice.cap = 0 ∨ o.slice.arr ≠ sl.arr ∨ o.slice.off + o.slice.len ≤ sl.off + sl.len)
  objs : ∀ o ∈ s.objs, o.slice.len ≤ o.slice.cap ∧ (o.slice.cap = 0 ∨
    (o.slice.arr < s.arrays.length ∧ ∃ g ∈ b.given, grp o.slice.arr = some g))
  one : ∀ (i j : Nat) (o o' : Obj), s.objs[i]? = some o → s.objs[j]? = some o' → i ≠ j → o.slice.cap = 0 ∨ o'.slice.cap = 0 ∨ o.slice.arr ≠ o'.slice.arr
  fresh : ∀ a g, a < s.arrays.length → grp a = some g → g < b.tags.length
  given : ∀ g ∈ b.given, g < b.tags.length
  owns : ∀ (v g : Nat), b.tags[v]? = some (.own g) → g < b.tags.length

theorem init_inv : Inv init ⟨[], []⟩ (fun _ => none) := by
  constructor <;> simp [init]

/-- what a step keeps of the collections -/
def Keeps (s s' : State) (op : Op) : Prop :=
  ∀ l o, s.objs[l]? = some o → ∃ o', s'.objs[l]? = some o' ∧ cells s'.arrays o'.slice = cells s.arrays o.slice ∧
    (¬ WritesMap l op → o'.data = o.data)


theorem snoc_get {α} {l : List α} {x y : α} {v : Nat} (h : (l ++ [x])[v]? = some y) : l[v]? = some y ∨ (v = l.length ∧ x = y) := by
  by_cases hv : v < l.length
  · rw [List.getElem?_append_left hv] at h; exact Or.inl h
  · have := (List.getElem?_eq_some_iff.mp h).1
    simp at this
    have : v = l.length := by omega
    subst this
    simp at h
    exact Or.inr ⟨rfl, h⟩

theorem get_lt {α} {l : List α} {y : α} {v : Nat} (h : l[v]? = some y) : v < l.length := (List.getElem?_eq_some_iff.mp h).1

/-- a new variable -/
theorem Inv.push {s : State} {b : Books} {grp} (h : Inv s b grp) {sl : Slice} {t : Tag}
    (hb : sl.len ≤ sl.cap ∧ (sl.cap = 0 ∨ sl.arr < s.arrays.length))
    (ho : ∀ g, t = .own g → g ≤ b.tags.length ∧ (sl.cap = 0 ∨ grp sl.arr = some g))
    (hu : t = .out → sl.cap = 0 ∨
      ((grp sl.arr = none ∨ ∃ g ∈ b.given, grp sl.arr = some g) ∧
        ∀ o ∈ s.objs, o.slice.cap = 0 ∨ o.slice.arr ≠ sl.arr ∨ o.slice.off + o.slice.len ≤ sl.off + sl.len)) :
    Inv { s with vars := s.vars ++ [sl] } { b with tags := b.tags ++ [t] } grp := by
  refine ⟨by simp [h.tags], ?_, ?_, ?_, h.objs, h.one, ?_, ?_, ?_⟩
  · intro v sl' hv
    rcases snoc_get hv with hv | ⟨_, rfl⟩
    · exact h.bound v sl' hv
    · exact hb
  · intro v sl' g hv ht
    rcases snoc_get hv with hv | ⟨rfl, rfl⟩ <;> rcases snoc_get ht with ht | ⟨h2, ht⟩
    · exact h.own v sl' g hv ht
    · have := get_lt hv; have := h.tags; omega
    · have := get_lt ht; have := h.tags; omega
    · exact (ho g ht).2
  · intro v sl' hv ht
    rcases snoc_get hv with hv | ⟨rfl, rfl⟩ <;> rcases snoc_get ht with ht | ⟨h2, ht⟩
    · exact h.out v sl' hv ht
    · have := get_lt hv; have := h.tags; omega
    · have := get_lt ht; have := h.tags; omega
    · exact hu ht
  · intro a g ha hg
    have := h.fresh a g ha hg
    simp; omega
  · intro g hg
    have := h.given g hg
    simp; omega
  · intro v g hg
    rcases snoc_get hg with hg | ⟨_, hg⟩
    · have := h.owns v g hg
      simp; omega
    · have := (ho g hg).1
      simp; omega

/-- a write into an array -/
theorem Inv.stored {s : State} {b : Books} {grp} (h : Inv s b grp) (a i : Nat) (x : Val) :
    Inv { s with arrays := store s.arrays a i x } b grp := by
  have hl : (store s.arrays a i x).length = s.arrays.length := by simp [store]
  refine ⟨h.tags, ?_, h.own, h.out, ?_, h.one, ?_, h.given, h.owns⟩
  · simpa only [hl] using h.bound
  · simpa only [hl] using h.objs
  · simpa only [hl] using h.fresh

/-- a new array and a variable for it -/
theorem Inv.alloc {s : State} {b : Books} {grp} (h : Inv s b grp) {l : List Val} {n c : Nat} {t : Tag} (x : Option Nat) (hn : n ≤ c)
    (ho : ∀ g, t = .own g → x = some g) (hu : t = .out → x = none) (hx : ∀ g, x = some g → g ≤ b.tags.length) :
    Inv { s with arrays := s.arrays ++ [l], vars := s.vars ++ [⟨s.arrays.length, 0, n, c⟩] } { b with tags := b.tags ++ [t] }
      (fun a => if a = s.arrays.length then x else grp a) := by
  refine ⟨by simp [h.tags], ?_, ?_, ?_, ?_, h.one, ?_, ?_, ?_⟩
  · intro v sl' hv
    rcases snoc_get hv with hv | ⟨_, rfl⟩
    · obtain ⟨h1, h2⟩ := h.bound v sl' hv
      refine ⟨h1, h2.imp_right fun h2 => ?_⟩
      simp; omega
    · simp [hn]
  · intro v sl' g hv ht
    rcases snoc_get hv with hv | ⟨rfl, rfl⟩ <;> rcases snoc_get ht with ht | ⟨h2, ht⟩
    · rcases (h.bound v sl' hv).2 with hc | hc
      · exact Or.inl hc
      · refine (h.own v sl' g hv ht).imp_right fun h3 => ?_
        rw [if_neg (by omega)]; exact h3
    · have := get_lt hv; have := h.tags; omega
    · have := get_lt ht; have := h.tags; omega
    · right; simp [ho g ht]
  · intro v sl' hv ht
    rcases snoc_get hv with hv | ⟨rfl, rfl⟩ <;> rcases snoc_get ht with ht | ⟨h2, ht⟩
    · rcases (h.bound v sl' hv).2 with hc | hc
      · exact Or.inl hc
      · refine (h.out v sl' hv ht).imp_right fun h3 => ?_
        simp only [if_neg (show ¬ sl'.arr = s.arrays.length by omega)]
        exact h3
    · have := get_lt hv; have := h.tags; omega
    · have := get_lt ht; have := h.tags; omega
    · right
      simp only [if_true, hu ht, true_or, true_and]
      intro o ho'
      rcases (h.objs o ho').2 with h4 | h4
      · exact Or.inl h4
      · right; left; have := h4.1; omega
  · intro o ho'
    obtain ⟨h1, h2⟩ := h.objs o ho'
    refine ⟨h1, h2.imp_right fun h3 => ?_⟩
    rw [if_neg (by have := h3.1; omega)]
    exact ⟨by simp; have := h3.1; omega, h3.2⟩
  · intro a g ha hg
    simp only [List.length_append, List.length_singleton] at ha ⊢
    by_cases hq : a = s.arrays.length
    · rw [if_pos hq] at hg
      have := hx g hg
      omega
    · rw [if_neg hq] at hg
      have := h.fresh a g (by omega) hg
      omega
  · intro g hg
    have := h.given g hg
    simp; omega
  · intro v g hg
    rcases snoc_get hg with hg | ⟨_, hg⟩
    · have := h.owns v g hg
      simp; omega
    · have := hx g (ho g hg)
      simp; omega

/-- a new collection of a free slice -/
theorem Inv.made {s : State} {b : Books} {grp} (h : Inv s b grp) {sl : Slice} {g : Nat} {m} (hg : g ∉ b.given) (hlt : g < b.tags.length)
    (hb : sl.len ≤ sl.cap ∧ (sl.cap = 0 ∨ sl.arr < s.arrays.length)) (ho : sl.cap = 0 ∨ grp sl.arr = some g) :
    Inv { s with objs := s.objs ++ [⟨sl, m⟩] } { b with given := g :: b.given } grp := by
  have hd : ∀ o ∈ s.objs, o.slice.cap = 0 ∨ sl.cap = 0 ∨ o.slice.arr ≠ sl.arr := by
    intro o hm
    rcases (h.objs o hm).2 with h1 | ⟨_, g', hg', h1⟩
    · exact Or.inl h1
    · rcases ho with h2 | h2
      · exact Or.inr (Or.inl h2)
      · right; right
        intro e
        rw [e, h2] at h1
        simp at h1
        subst h1
        exact hg hg'
  refine ⟨h.tags, h.bound, h.own, ?_, ?_, ?_, h.fresh, ?_, h.owns⟩
  · intro v sl' hv ht
    refine (h.out v sl' hv ht).imp_right fun h3 => ⟨?_, ?_⟩
    · rcases h3.1 with h4 | ⟨g', h4, h5⟩
      · exact Or.inl h4
      · exact Or.inr ⟨g', List.mem_cons_of_mem _ h4, h5⟩
    · intro o hm
      simp only [List.mem_append, List.mem_singleton] at hm
      rcases hm with hm | rfl
      · exact h3.2 o hm
      · rcases ho with h2 | h2
        · exact Or.inl h2
        · right; left
          simp only
          intro e
          rw [e] at h2
          rcases h3.1 with h4 | ⟨g', h4, h5⟩
          · rw [h4] at h2; simp at h2
          · rw [h5] at h2; simp at h2; subst h2; exact hg h4
  · intro o hm
    simp only [List.mem_append, List.mem_singleton] at hm
    rcases hm with hm | rfl
    · obtain ⟨h1, h2⟩ := h.objs o hm
      exact ⟨h1, h2.imp_right fun ⟨h3, g', h4, h5⟩ => ⟨h3, g', List.mem_cons_of_mem _ h4, h5⟩⟩
    · refine ⟨hb.1, ?_⟩
      rcases ho with h2 | h2
      · exact Or.inl h2
      · rcases hb.2 with h3 | h3
        · exact Or.inl h3
        · exact Or.inr ⟨h3, g, by simp, h2⟩
  · intro i j o o' hi hj hij
    rcases snoc_get hi with hi' | ⟨rfl, rfl⟩ <;> rcases snoc_get hj with hj' | ⟨rfl, rfl⟩
    · exact h.one i j o o' hi' hj' hij
    · have := hd o (List.mem_of_getElem? hi')
      exact this
    · have := hd o' (List.mem_of_getElem? hj')
      rcases this with h1 | h1 | h1
      · exact Or.inr (Or.inl h1)
      · exact Or.inl h1
      · exact Or.inr (Or.inr (fun e => h1 e.symm))
    · exact absurd rfl hij
  · intro g' hg'
    simp only [List.mem_cons] at hg'
    rcases hg' with rfl | hg'
    · exact hlt
    · exact h.given g' hg'

theorem Inv.give {s : State} {b : Books} {grp} (h : Inv s b grp) {g : Nat} (hlt : g < b.tags.length) :
    Inv s { b with given := g :: b.given } grp := by
  refine ⟨h.tags, h.bound, h.own, ?_, ?_, h.one, h.fresh, ?_, h.owns⟩
  · intro v sl' hv ht
    refine (h.out v sl' hv ht).imp_right fun h3 => ⟨?_, h3.2⟩
    rcases h3.1 with h4 | ⟨g', h4, h5⟩
    · exact Or.inl h4
    · exact Or.inr ⟨g', List.mem_cons_of_mem _ h4, h5⟩
  · intro o hm
    obtain ⟨h1, h2⟩ := h.objs o hm
    exact ⟨h1, h2.imp_right fun ⟨h3, g', h4, h5⟩ => ⟨h3, g', List.mem_cons_of_mem _ h4, h5⟩⟩
  · intro g' hg'
    simp only [List.mem_cons] at hg'
    rcases hg' with rfl | hg'
    · exact hlt
    · exact h.given g' hg'

/-- another Go map -/
theorem Inv.remap {s : State} {b : Books} {grp} (h : Inv s b grp) {l : Nat} {o : Obj} (ho : s.objs[l]? = some o) (m) :
    Inv { s with objs := s.objs.set l ⟨o.slice, m⟩ } b grp := by
  have hm : ∀ (i : Nat) o', (s.objs.set l ⟨o.slice, m⟩)[i]? = some o' → ∃ o'', s.objs[i]? = some o'' ∧ o''.slice = o'.slice := by
    intro i o' hi
    rw [List.getElem?_set] at hi
    split at hi
    · subst_vars
      split at hi
      · simp at hi; subst hi; exact ⟨o, ho, rfl⟩
      · simp at hi
    · exact ⟨o', hi, rfl⟩
  have hm' : ∀ o' ∈ s.objs.set l ⟨o.slice, m⟩, ∃ o'' ∈ s.objs, o''.slice = o'.slice := by
    intro o' h1
    obtain ⟨i, hi⟩ := List.mem_iff_getElem?.mp h1
    obtain ⟨o'', h2, h3⟩ := hm i o' hi
    exact ⟨o'', List.mem_of_getElem? h2, h3⟩
  refine ⟨h.tags, h.bound, h.own, ?_, ?_, ?_, h.fresh, h.given, h.owns⟩
  · intro v sl' hv ht
    refine (h.out v sl' hv ht).imp_right fun h3 => ⟨h3.1, ?_⟩
    intro o' h1
    obtain ⟨o'', h2, h4⟩ := hm' o' h1
    rw [← h4]
    exact h3.2 o'' h2
  · intro o' h1
    obtain ⟨o'', h2, h4⟩ := hm' o' h1
    rw [← h4]
    exact h.objs o'' h2
  · intro i j o1 o2 h1 h2 hij
    obtain ⟨o1', h3, h4⟩ := hm i o1 h1
    obtain ⟨o2', h5, h6⟩ := hm j o2 h2
    rw [← h4, ← h6]
    exact h.one i j o1' o2' h3 h5 hij

theorem Inv.var_bound {s : State} {b : Books} {grp} (h : Inv s b grp) (v : Nat) :
    (s.var v).len ≤ (s.var v).cap ∧ ((s.var v).cap = 0 ∨ (s.var v).arr < s.arrays.length) := by
  unfold State.var
  cases hv : s.vars[v]? with
  | none => simp [nilSlice]
  | some sl => exact h.bound v sl hv

theorem Inv.var_own {s : State} {b : Books} {grp} (h : Inv s b grp) {v g : Nat} (ht : b.tag v = .own g) :
    (s.var v).cap = 0 ∨ grp (s.var v).arr = some g := by
  unfold State.var
  cases hv : s.vars[v]? with
  | none => simp [nilSlice]
  | some sl =>
    refine h.own v sl g hv ?_
    have hlt : v < b.tags.length := by rw [h.tags]; exact get_lt hv
    unfold Books.tag at ht
    rw [List.getElem?_eq_getElem hlt] at ht ⊢
    simpa using ht

theorem Inv.var_out {s : State} {b : Books} {grp} (h : Inv s b grp) {v : Nat} (ht : b.tag v = .out) :
    (s.var v).cap = 0 ∨ ((grp (s.var v).arr = none ∨ ∃ g ∈ b.given, grp (s.var v).arr = some g) ∧
      ∀ o ∈ s.objs, o.slice.cap = 0 ∨ o.slice.arr ≠ (s.var v).arr ∨ o.slice.off + o.slice.len ≤ (s.var v).off + (s.var v).len) := by
  unfold State.var
  cases hv : s.vars[v]? with
  | none => simp [nilSlice]
  | some sl =>
    refine h.out v sl hv ?_
    have hlt : v < b.tags.length := by rw [h.tags]; exact get_lt hv
    unfold Books.tag at ht
    rw [List.getElem?_eq_getElem hlt] at ht ⊢
    simpa using ht

theorem Inv.tag_lt {s : State} {b : Books} {grp} (h : Inv s b grp) {v g : Nat} (ht : b.tag v = .own g) : g < b.tags.length := by
  unfold Books.tag at ht
  cases hv : b.tags[v]? with
  | none => rw [hv] at ht; simp at ht
  | some t => rw [hv] at ht; simp at ht; subst ht; exact h.owns v g hv

theorem keeps_refl (s : State) (op : Op) : Keeps s s op := fun _ o h => ⟨o, h, rfl, fun _ => rfl⟩

theorem keeps_same {s s' : State} {op : Op} (ho : s'.objs = s.objs) (hc : ∀ o ∈ s.objs, cells s'.arrays o.slice = cells s.arrays o.slice) : Keeps s s' op := by
  intro l o h
  exact ⟨o, by rw [ho]; exact h, hc o (List.mem_of_getElem? h), fun _ => rfl⟩

theorem keeps_more {s s' : State} {op : Op} {o1 : Obj} (ho : s'.objs = s.objs ++ [o1]) (hc : s'.arrays = s.arrays) : Keeps s s' op := by
  intro l o h
  refine ⟨o, ?_, by rw [hc], fun _ => rfl⟩
  rw [ho, List.getElem?_append_left (get_lt h)]; exact h


/-- a write at a place of a free slice touches no collection -/
theorem Inv.free_cells {s : State} {b : Books} {grp} (h : Inv s b grp) {v : Nat} (hf : b.Free v) (hc : (s.var v).cap ≠ 0) (i : Nat) (x : Val) :
    ∀ o ∈ s.objs, cells (store s.arrays (s.var v).arr i x) o.slice = cells s.arrays o.slice := by
  obtain ⟨g, ht, hg⟩ := hf
  intro o ho
  obtain ⟨h1, h2⟩ := h.objs o ho
  rcases h2 with h2 | ⟨_, g', hg', h3⟩
  · have : o.slice.len = 0 := by omega
    simp [cells, this]
  · refine cells_store (Or.inl ?_)
    intro e
    have h4 := (h.var_own ht).resolve_left hc
    rw [← e, h3] at h4
    simp at h4
    subst h4
    exact hg hg'

theorem Inv.out_cells {s : State} {b : Books} {grp} (h : Inv s b grp) {v : Nat} (ht : b.tag v = .out) (hc : (s.var v).cap ≠ 0) (x : Val) :
    ∀ o ∈ s.objs, cells (store s.arrays (s.var v).arr ((s.var v).off + (s.var v).len) x) o.slice = cells s.arrays o.slice := by
  intro o ho
  rcases ((h.var_out ht).resolve_left hc).2 o ho with h1 | h1
  · have : o.slice.len = 0 := by have := (h.objs o ho).1; omega
    simp [cells, this]
  · exact cells_store h1

theorem Inv.new_cells {s : State} {b : Books} {grp} (h : Inv s b grp) (l : List Val) :
    ∀ o ∈ s.objs, cells (s.arrays ++ [l]) o.slice = cells s.arrays o.slice := by
  intro o ho
  obtain ⟨h1, h2⟩ := h.objs o ho
  exact cells_append (by rcases h2 with h2 | h2; · left; omega
                         · exact Or.inr h2.1)

theorem step_ok {s : State} {b : Books} {grp} (h : Inv s b grp) {op : Op} (ha : b.Allowed op) :
    ∃ grp', Inv (step s op).1 (b.step op) grp' ∧ Keeps s (step s op).1 op := by
  cases op with
  | make vs spare =>
    exact ⟨_, h.alloc (some b.tags.length) (by omega) (by simp) (by simp) (by simp), keeps_same rfl (h.new_cells _)⟩
  | write v i x =>
    simp only [step]
    split
    · rename_i hi
      exact ⟨grp, h.stored _ _ _, keeps_same rfl (h.free_cells ha (by have := (h.var_bound v).1; omega) _ _)⟩
    · exact ⟨grp, h, keeps_refl _ _⟩
  | append v x spare =>
    simp only [step, goAppend, Books.step]
    have hb := h.var_bound v
    split
    · rename_i hlt
      have hc : (s.var v).cap ≠ 0 := by omega
      refine ⟨grp, (h.stored _ _ _).push ?_ ?_ ?_, keeps_same rfl ?_⟩
      · refine ⟨by simp only; omega, hb.2.imp_right fun h2 => ?_⟩
        simpa [store] using h2
      · intro g hg
        exact ⟨Nat.le_of_lt (h.tag_lt hg), h.var_own hg⟩
      · intro ht
        refine (h.var_out ht).imp_right fun h3 => ⟨h3.1, fun o ho => ?_⟩
        rcases h3.2 o ho with h4 | h4 | h4
        · exact Or.inl h4
        · exact Or.inr (Or.inl h4)
        · right; right; simp only; omega
      · rcases ha with ha | ha
        · exact h.out_cells ha hc x
        · exact h.free_cells ha hc _ x
    · refine ⟨_, h.alloc (match b.tag v with | .own g => some g | _ => none) (by omega) ?_ ?_ ?_, keeps_same rfl (h.new_cells _)⟩
      · intro g hg; rw [hg]
      · intro hg; rw [hg]
      · intro g hg
        cases ht : b.tag v with
        | own g' =>
          rw [ht] at hg
          simp at hg
          subst hg
          exact Nat.le_of_lt (h.tag_lt ht)
        | out => rw [ht] at hg; simp at hg
        | seen => rw [ht] at hg; simp at hg
  | cut v lo hi =>
    have hb := h.var_bound v
    simp only [step, Books.step]
    split
    · rename_i hc
      refine ⟨grp, h.push ?_ ?_ ?_, keeps_same rfl (fun _ _ => rfl)⟩
      · refine ⟨by simp only; omega, ?_⟩
        rcases hb.2 with h1 | h1
        · left; simp only; omega
        · exact Or.inr h1
      · intro g hg
        cases ht : b.tag v with
        | own g' =>
          rw [ht] at hg
          simp at hg
          subst hg
          refine ⟨Nat.le_of_lt (h.tag_lt ht), (h.var_own ht).imp_left fun h1 => ?_⟩
          simp only; omega
        | out => rw [ht] at hg; simp at hg
        | seen => rw [ht] at hg; simp at hg
      · intro hg
        cases ht : b.tag v <;> rw [ht] at hg <;> simp at hg
    · refine ⟨grp, h.push (by simp [nilSlice]) ?_ ?_, keeps_same rfl (fun _ _ => rfl)⟩
      · intro g hg
        cases ht : b.tag v with
        | own g' =>
          rw [ht] at hg
          simp at hg
          subst hg
          exact ⟨Nat.le_of_lt (h.tag_lt ht), Or.inl rfl⟩
        | out => rw [ht] at hg; simp at hg
        | seen => rw [ht] at hg; simp at hg
      · intro _; exact Or.inl rfl
  | read v => exact ⟨grp, h, keeps_refl _ _⟩
  | newEntry k x => exact ⟨grp, ⟨h.1, h.2, h.3, h.4, h.5, h.6, h.7, h.8, h.9⟩, keeps_same rfl (fun _ _ => rfl)⟩
  | setKey e k => exact ⟨grp, ⟨h.1, h.2, h.3, h.4, h.5, h.6, h.7, h.8, h.9⟩, keeps_same rfl (fun _ _ => rfl)⟩
  | setValue e x => exact ⟨grp, ⟨h.1, h.2, h.3, h.4, h.5, h.6, h.7, h.8, h.9⟩, keeps_same rfl (fun _ _ => rfl)⟩
  | newList v =>
    obtain ⟨g, ht, hg⟩ := ha
    simp only [step, Books.step, ht]
    exact ⟨grp, h.made hg (h.tag_lt ht) (h.var_bound v) (h.var_own ht), keeps_more rfl rfl⟩
  | newMap v =>
    obtain ⟨g, ht, hg⟩ := ha
    simp only [step, Books.step, ht]
    split
    · exact ⟨grp, h.made hg (h.tag_lt ht) (h.var_bound v) (h.var_own ht), keeps_more rfl rfl⟩
    · exact ⟨grp, h.give (h.tag_lt ht), keeps_refl _ _⟩
  | ask l q =>
    simp only [step]
    split
    · rename_i o ho
      by_cases hq : q = .toArray
      · subst hq
        simp only [if_true, Books.step]
        have hm := List.mem_of_getElem? ho
        refine ⟨grp, h.push ?_ (by simp) ?_, keeps_same rfl (fun _ _ => rfl)⟩
        · exact ⟨(h.objs o hm).1, (h.objs o hm).2.imp_right And.left⟩
        · intro _
          by_cases hz : o.slice.cap = 0
          · exact Or.inl hz
          refine Or.inr ⟨Or.inr ((h.objs o hm).2.resolve_left hz).2, fun o' ho' => ?_⟩
          obtain ⟨j, hj⟩ := List.mem_iff_getElem?.mp ho'
          by_cases hjl : j = l
          · subst hjl
            rw [ho] at hj
            simp at hj
            subst hj
            simp
          · rcases h.one j l o' o hj ho hjl with h4 | h4 | h4
            · exact Or.inl h4
            · exact absurd h4 hz
            · exact Or.inr (Or.inl h4)
      · have : b.step (.ask l q) = b := by cases q <;> first | rfl | exact absurd rfl hq
        simp only [hq, if_false, this]
        exact ⟨grp, h, keeps_refl _ _⟩
    · by_cases hq : q = .toArray
      · subst hq
        simp only [if_true, Books.step]
        exact ⟨grp, h.push (by simp [nilSlice]) (by simp) (fun _ => Or.inl rfl), keeps_same rfl (fun _ _ => rfl)⟩
      · have : b.step (.ask l q) = b := by cases q <;> first | rfl | exact absurd rfl hq
        simp only [hq, if_false, this]
        exact ⟨grp, h, keeps_refl _ _⟩
  | putMap l k x =>
    simp only [step, Books.step]
    split
    · rename_i sl m ho
      split
      · refine ⟨grp, h.remap ho _, ?_⟩
        intro l' o' ho'
        by_cases hl : l = l'
        · subst hl
          rw [ho] at ho'
          simp at ho'
          subst ho'
          refine ⟨⟨sl, some (mapPut m k x)⟩, ?_, rfl, fun hw => absurd rfl hw⟩
          simp [get_lt ho]
        · exact ⟨o', by simp [hl, ho'], rfl, fun _ => rfl⟩
      · exact ⟨grp, h, keeps_refl _ _⟩
    · exact ⟨grp, h, keeps_refl _ _⟩
  | delMap l k =>
    simp only [step, Books.step]
    split
    · rename_i sl m ho
      split
      · refine ⟨grp, h.remap ho _, ?_⟩
        intro l' o' ho'
        by_cases hl : l = l'
        · subst hl
          rw [ho] at ho'
          simp at ho'
          subst ho'
          refine ⟨⟨sl, some (mapDel m k)⟩, ?_, rfl, fun hw => absurd rfl hw⟩
          simp [get_lt ho]
        · exact ⟨o', by simp [hl, ho'], rfl, fun _ => rfl⟩
      · exact ⟨grp, h, keeps_refl _ _⟩
    · exact ⟨grp, h, keeps_refl _ _⟩

/-! ## Programs -/

theorem run_append (s : State) (a c : List Op) : run s (a ++ c) = run (run s a) c := by
  simp [run, List.foldl_append]

theorem books_append (b : Books) : ∀ (xs ys : List Op), b.AllAllowed (xs ++ ys) ↔ b.AllAllowed xs ∧ (xs.foldl Books.step b).AllAllowed ys := by
  intro xs
  induction xs generalizing b with
  | nil => intro ys; simp [Books.AllAllowed]
  | cons x xs ih =>
    intro ys
    simp only [List.cons_append, Books.AllAllowed, ih, List.foldl_cons, and_assoc]

theorem run_inv {s : State} {b : Books} {grp} (h : Inv s b grp) {ops : List Op} (ha : b.AllAllowed ops) :
    ∃ grp', Inv (run s ops) (ops.foldl Books.step b) grp' := by
  induction ops generalizing s b grp with
  | nil => exact ⟨grp, h⟩
  | cons op ops ih =>
    obtain ⟨grp', h1, _⟩ := step_ok h ha.1
    exact ih h1 ha.2

theorem run_keeps {s : State} {b : Books} {grp} (h : Inv s b grp) {ops : List Op} (ha : b.AllAllowed ops) {l : Nat} {o : Obj}
    (ho : s.objs[l]? = some o) : ∃ o', (run s ops).objs[l]? = some o' ∧ cells (run s ops).arrays o'.slice = cells s.arrays o.slice ∧
      ((∀ op ∈ ops, ¬ WritesMap l op) → o'.data = o.data) := by
  induction ops generalizing s b grp o with
  | nil => exact ⟨o, ho, rfl, fun _ => rfl⟩
  | cons op ops ih =>
    obtain ⟨grp', h1, h2⟩ := step_ok h ha.1
    obtain ⟨o1, h3, h4, h5⟩ := h2 l o ho
    obtain ⟨o2, h6, h7, h8⟩ := ih h1 ha.2 h3
    refine ⟨o2, h6, h7.trans h4, fun hw => ?_⟩
    rw [h8 (fun op' h' => hw op' (List.mem_cons_of_mem _ h')), h5 (hw op (by simp))]

theorem run_nomap : ∀ (ops : List Op) (s : State) (l : Nat) (o : Obj), s.objs[l]? = some o → o.data = none → ∀ o', (run s ops).objs[l]? = some o' → o'.data = none := by
  intro ops
  induction ops with
  | nil => intro s l o e1 e2 o' e3; simp only [run, List.foldl_nil] at e3; rw [e1] at e3; simp at e3; subst e3; exact e2
  | cons op ops ih =>
intro s l o e1 e2 o' e3
have : ∃ o1, (step s op).1.objs[l]? = some o1 ∧ o1.data = none := by
  have keep : ∀ s' : State, s'.objs = s.objs → ∃ o1, s'.objs[l]? = some o1 ∧ o1.data = none := fun s' e => ⟨o, by rw [e]; exact e1, e2⟩
  have more : ∀ (s' : State) o2, s'.objs = s.objs ++ [o2] → ∃ o1, s'.objs[l]? = some o1 ∧ o1.data = none :=
    fun s' o2 e => ⟨o, by rw [e, List.getElem?_append_left (get_lt e1)]; exact e1, e2⟩
  cases op with
  | putMap l' k x =>
    simp only [step]
    split
    · rename_i sl m hm
      split
      · have : l' ≠ l := by rintro rfl; rw [hm] at e1; simp at e1; subst e1; simp at e2
        exact ⟨o, by simp [this, e1], e2⟩
      · exact keep _ rfl
    · exact keep _ rfl
  | delMap l' k =>
    simp only [step]
    split
    · rename_i sl m hm
      split
      · have : l' ≠ l := by rintro rfl; rw [hm] at e1; simp at e1; subst e1; simp at e2
        exact ⟨o, by simp [this, e1], e2⟩
      · exact keep _ rfl
    · exact keep _ rfl
  | newList v => exact more _ _ rfl
  | newMap v =>
    simp only [step]
    split
    · exact more _ _ rfl
    · exact keep _ rfl
  | make vs n => exact keep _ rfl
  | write v i x => simp only [step]; split <;> exact keep _ rfl
  | append v x n => simp only [step, goAppend]; split <;> exact keep _ rfl
  | cut v a b => simp only [step]; split <;> exact keep _ rfl
  | read v => exact keep _ rfl
  | newEntry k x => exact keep _ rfl
  | setKey e k => exact keep _ rfl
  | setValue e x => exact keep _ rfl
  | ask l' q => simp only [step]; split <;> (simp only; split <;> exact keep _ rfl)
obtain ⟨o1, e4, e5⟩ := this
exact ih _ l o1 e4 e5 o' e3

theorem answer_ask (ops : List Op) (l : Nat) (q : Query) : answer ops (.ask l q) =
    match (run init ops).objs[l]? with
    | some o => reply (cells (run init ops).arrays o.slice) o.data q
    | none => .panic := by
  simp only [answer, step]
  cases (run init ops).objs[l]? <;> rfl

theorem fill_none (entries : List (Val × Val)) : ∀ (d : List Val) (m : List (Val × Val)),
    fill entries d m = none ↔ ¬ ∃ ps, pairs? entries d = some ps ∧ ∀ p ∈ ps, ¬ ∃ l, p.1 = .bytes l := by
  have hh : ∀ k, (hashable k = true) ↔ ¬ ∃ l, k = .bytes l := by
    intro k; cases k <;> simp [hashable]
  intro d
  induction d with
  | nil => intro m; simp [fill, pairs?]
  | cons x r ih =>
    intro m
    have hcons : ∀ e, pairs? entries (.entry e :: r) = (entries[e]?).bind fun p => (pairs? entries r).map (p :: ·) := by
      intro e
      simp only [pairs?, List.mapM_cons]
      cases entries[e]? <;> simp
      cases List.mapM (fun x => match x with | .entry e => entries[e]? | _ => none) r <;> simp
    cases x with
    | nil => simp [fill, pairs?]
    | num n => simp [fill, pairs?]
    | bytes l => simp [fill, pairs?]
    | entry e =>
      simp only [fill, hcons]
      cases entries[e]? with
      | none => simp
      | some p =>
        obtain ⟨k, y⟩ := p
        simp only [Option.bind_some]
        by_cases hk : hashable k = true
        · simp only [hk, if_true, ih, not_congr]
          have := (hh k).mp hk
          constructor
          · rintro h1 ⟨ps, h2, h3⟩
            simp only [Option.map_eq_some_iff] at h2
            obtain ⟨ps', h2, rfl⟩ := h2
            exact h1 ⟨ps', h2, fun p hp => h3 p (List.mem_cons_of_mem _ hp)⟩
          · rintro h1 ⟨ps, h2, h3⟩
            refine h1 ⟨(k, y) :: ps, by simp [h2], ?_⟩
            intro p hp
            simp only [List.mem_cons] at hp
            rcases hp with rfl | hp
            · exact this
            · exact h3 p hp
        · simp only [hk]
          simp only [Bool.false_eq_true, if_false, true_iff]
          rintro ⟨ps, h2, h3⟩
          simp only [Option.map_eq_some_iff] at h2
          obtain ⟨ps', h2, rfl⟩ := h2
          exact hk ((hh k).mpr (h3 (k, y) (by simp)))

theorem last_nodup {ps : List (Val × Val)} (hn : (ps.map (·.1)).Nodup) {k x : Val} (hp : (k, x) ∈ ps) : last? ps k = some x := by
  have : k ∈ ps.map (·.1) := List.mem_map.mpr ⟨_, hp, rfl⟩
  have hs := last_isSome ps k
  simp only [this, decide_true] at hs
  obtain ⟨y, hy⟩ := Option.isSome_iff_exists.mp hs
  have hm := last_some_mem hy
  rw [mem_mapGet hn] at hm hp
  rw [hm] at hp
  rw [hy, hp]

theorem cells_hit {arrays : List (List Val)} {sl : Slice} {i : Nat} {x : Val} (h : i < (cells arrays sl).length) :
    (cells (store arrays sl.arr (sl.off + i) x) sl)[i]? = some x := by
  unfold cells at h
  unfold cells store
  cases ha : arrays[sl.arr]? with
  | none => rw [ha] at h; simp at h
  | some l =>
    rw [ha] at h
    simp only [Option.getD_some, List.length_take, List.length_drop] at h
    rw [List.getElem?_modify]
    simp only [if_true, ha, Option.map_eq_map, Option.map_some, Option.getD_some, List.getElem?_take, List.getElem?_drop, List.getElem?_set]
    rw [if_pos (by omega), if_pos (by omega)]

theorem toArray_write (s : State) {l : Nat} {o : Obj} (ho : s.objs[l]? = some o) (i : Nat) (x : Val) (hi : i < o.slice.len) :
    (step (step s (.ask l .toArray)).1 (.write s.vars.length i x)).1 =
      { s with vars := s.vars ++ [o.slice], arrays := store s.arrays o.slice.arr (o.slice.off + i) x } := by
  have h1 : (step s (.ask l .toArray)).1 = { s with vars := s.vars ++ [o.slice] } := by simp only [step, ho, if_true]
  rw [h1]
  have hv : State.var { s with vars := s.vars ++ [o.slice] } s.vars.length = o.slice := by simp [State.var]
  simp only [step, hv, hi, if_true]

end Verif.Immutable
