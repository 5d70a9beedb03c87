import Mathlib.Data.List.Nodup
import Mathlib.Data.List.Perm.Subperm
import Verif.Model.BinaryList

/-!
# Proofs about the decoding of lists
-/

namespace Verif.BinaryList

/-! ## Moves -/

theorem perm_eraseIdx (list : List Nat) : ∀ (a : Nat) (ha : a < list.length), (list[a] :: list.eraseIdx a).Perm list := by
  induction list with
  | nil => intro a ha; simp at ha
  | cons x list ih =>
    intro a ha
    cases a with
    | zero => simp
    | succ a =>
      simp only [List.getElem_cons_succ, List.eraseIdx_cons_succ]
      exact (List.Perm.swap _ _ _).trans ((ih a (by simpa using ha)).cons _)

theorem move_spec (list : List Nat) (a b : Nat) (ha : a < list.length) (hb : b < list.length) :
    ∃ l, move list a b = some l ∧ l.Perm list ∧ l.length = list.length ∧ l = (list.eraseIdx a).insertIdx b list[a] := by
  refine ⟨_, by simp [move, List.getElem?_eq_getElem ha, hb], ?_, ?_, rfl⟩
  · have hlen : b ≤ (list.eraseIdx a).length := by rw [List.length_eraseIdx, if_pos ha]; omega
    exact (List.perm_insertIdx _ _ hlen).trans (perm_eraseIdx list a ha)
  · have hlen : b ≤ (list.eraseIdx a).length := by rw [List.length_eraseIdx, if_pos ha]; omega
    rw [List.length_insertIdx_of_le_length hlen, List.length_eraseIdx, if_pos ha]; omega

theorem moves_spec (k : Nat) (idx : List Nat) : ∀ (i : Nat) (list : List Nat), (∀ p ∈ idx, p < list.length) → k + i + idx.length ≤ list.length →
    ∃ l, moves k i idx list = some l ∧ l.Perm list := by
  induction idx with
  | nil => intro i list _ _; exact ⟨list, rfl, .refl _⟩
  | cons p idx ih =>
    intro i list hp hlen
    simp only [List.length_cons] at hlen
    simp only [moves]
    split
    · obtain ⟨l, h1, h2, h3, -⟩ := move_spec list (k + i) p (by omega) (hp p (by simp))
      rw [h1]
      obtain ⟨l', h4, h5⟩ := ih (i + 1) l (fun q hq => by rw [h3]; exact hp q (by simp [hq])) (by omega)
      exact ⟨l', h4, h5.trans h2⟩
    · exact ih (i + 1) list (fun q hq => hp q (by simp [hq])) (by omega)

theorem insertIdx_zero_of (l : List Nat) (b x : Nat) (hb : 0 < b) (hl : l ≠ []) : (l.insertIdx b x).head? = l.head? := by
  cases l with
  | nil => simp at hl
  | cons y l =>
    obtain ⟨b, rfl⟩ : ∃ c, b = c + 1 := ⟨b - 1, by omega⟩
    simp

theorem move_head (list l : List Nat) (a b : Nat) (h : move list a b = some l) (ha : 0 < a) (hb : 0 < b) : l.head? = list.head? := by
  simp only [move] at h
  split at h
  · simp at h
  · rename_i o ho
    split at h
    · rename_i hlt
      simp at h
      subst h
      have hlt' : a < list.length := by
        rw [List.getElem?_eq_some_iff] at ho
        exact ho.1
      cases list with
      | nil => simp at hlt
      | cons y list =>
        obtain ⟨a, rfl⟩ : ∃ c, a = c + 1 := ⟨a - 1, by omega⟩
        rw [List.eraseIdx_cons_succ, insertIdx_zero_of _ _ _ hb (by simp)]
        simp
    · simp at h

theorem moves_head (k : Nat) (idx : List Nat) : ∀ (i : Nat) (list l : List Nat), (∀ p ∈ idx, 0 < p) → 0 < k + i →
    moves k i idx list = some l → l.head? = list.head? := by
  induction idx with
  | nil => intro i list l _ _ h; simp [moves] at h; subst h; rfl
  | cons p idx ih =>
    intro i list l hp hk h
    simp only [moves] at h
    split at h
    · split at h
      · simp at h
      · rename_i list' hm
        rw [ih (i + 1) list' l (fun q hq => hp q (by simp [hq])) (by omega) h]
        exact move_head _ _ _ _ hm hk (hp p (by simp))
    · exact ih (i + 1) list l (fun q hq => hp q (by simp [hq])) (by omega) h

theorem moves_none (idx : List Nat) : ∀ (i : Nat) (list : List Nat), (∀ t (h : t < idx.length), idx[t] = i + t) → moves 0 i idx list = some list := by
  induction idx with
  | nil => intro i list _; rfl
  | cons p idx ih =>
    intro i list h
    have h0 := h 0 (by simp)
    simp at h0
    simp only [moves, h0, Nat.zero_add, ne_eq, not_true, if_false]
    apply ih
    intro t ht
    have := h (t + 1) (by simp; omega)
    simp at this
    omega

/-! ## Additions -/

theorem addAll_append (os : List Nat) : ∀ (l : List Nat), os.Nodup → (∀ o ∈ os, o ∉ l) → ∀ rest, addAll l (os ++ rest) = addAll (l ++ os) rest := by
  induction os with
  | nil => intro l _ _ rest; simp
  | cons o os ih =>
    intro l hn hd rest
    have ho : o ∉ l := hd o (by simp)
    simp only [List.cons_append, addAll, if_neg ho]
    rw [ih (l ++ [o]) (by simp at hn; exact hn.2) _ rest]
    · simp
    · intro x hx
      simp only [List.mem_append, List.mem_singleton, not_or]
      refine ⟨hd x (by simp [hx]), ?_⟩
      rintro rfl
      simp at hn
      exact hn.1 hx

theorem addAll_same (os : List Nat) (l : List Nat) (h : ∀ o ∈ os, o ∈ l) : addAll l os = l := by
  induction os with
  | nil => rfl
  | cons o os ih => simp [addAll, h o (by simp), ih (fun x hx => h x (by simp [hx]))]

/-! ## The loop -/

/-- What is known after the objects `P` have been handled. -/
structure Inv (E objs : List Nat) (s : St) (i : Nat) (pos : List Nat) : Prop where
  list : s.list = (objs.take i).filter (· ∈ E) ++ E.filter (· ∉ objs.take i)
  objects : s.objects = (objs.take i).filter (· ∉ E) ++ objs.drop ((objs.take i).filter (· ∉ E)).length
  dup : s.duplicateCount = ((objs.take i).filter (· ∈ E)).length
  existing : s.existing = E.map fun x => if x ∈ objs.take i then none else some x
  indices : s.indices = pos ++ List.replicate (E.length - pos.length) 0
  poslen : pos.length = ((objs.take i).filter (· ∈ E)).length
  sorted : pos.Pairwise (· < ·)
  bound : ∀ p ∈ pos, p < i
  at_ : ∀ t : Nat, t < pos.length → objs[pos.getD t 0]? = ((objs.take i).filter (· ∈ E))[t]?

theorem find_some (P A B : List Nat) (o : Nat) (hA : o ∉ A) (hP : o ∉ P) : ∀ (count j : Nat),
    findExisting o count j ((A ++ o :: B).map fun x => if x ∈ P then none else some x) = some (count + (A.filter (· ∉ P)).length, j + A.length) := by
  induction A with
  | nil => intro count j; simp [findExisting, hP]
  | cons x A ih =>
    intro count j
    simp only [List.mem_cons, not_or] at hA
    simp only [List.cons_append, List.map_cons, findExisting]
    by_cases hx : x ∈ P
    · simp only [if_pos hx]
      rw [if_neg (by simp)]
      have := ih hA.2 count (j + 1)
      simp only [Option.isSome_none, Bool.false_eq_true, if_false, this]
      simp [hx]; omega
    · simp only [if_neg hx]
      rw [if_neg (by simpa using Ne.symm hA.1)]
      have := ih hA.2 (count + 1) (j + 1)
      simp only [Option.isSome_some, if_true, this]
      simp [hx]; omega

theorem find_none (P E : List Nat) (o : Nat) (hE : o ∉ E) : ∀ (count j : Nat),
    findExisting o count j (E.map fun x => if x ∈ P then none else some x) = none := by
  induction E with
  | nil => intro count j; rfl
  | cons x E ih =>
    intro count j
    simp only [List.mem_cons, not_or] at hE
    simp only [List.map_cons, findExisting]
    rw [if_neg, ih hE.2]
    split
    · simp
    · simpa using Ne.symm hE.1

theorem filter_count (P E : List Nat) : (P.filter (· ∈ E)).length + (P.filter (· ∉ E)).length = P.length := by
  induction P with
  | nil => rfl
  | cons x P ih => by_cases h : x ∈ E <;> simp [h] at ih ⊢ <;> omega

theorem set_map_none (P A B : List Nat) (o : Nat) (hA : o ∉ A) (hB : o ∉ B) (hP : o ∉ P) :
    ((A ++ o :: B).map fun x => if x ∈ P then none else some x).set (0 + A.length) none =
      (A ++ o :: B).map fun x => if x ∈ P ++ [o] then none else some x := by
  have e : ∀ l : List Nat, o ∉ l → (l.map fun x => if x ∈ P then none else some x) = l.map fun x => if x ∈ P ++ [o] then none else some x := by
    intro l hl
    apply List.map_congr_left
    intro x hx
    have : x ≠ o := fun e => hl (e ▸ hx)
    simp [this]
  simp only [List.map_append, List.map_cons, e A hA, e B hB]
  rw [List.set_append_right _ _ (by simp)]
  simp

theorem insertIdx_length (o : Nat) (l : List Nat) : ∀ D : List Nat, (D ++ l).insertIdx D.length o = D ++ o :: l := by
  intro D
  induction D with
  | nil => simp
  | cons x D ih => simpa using ih

theorem step_spec (E objs : List Nat) (h1 : E.Nodup) (h2 : objs.Nodup) (hsub : ∀ o ∈ E, o ∈ objs) (s : St) (i : Nat) (pos : List Nat) (hi : i < objs.length)
    (I : Inv E objs s i pos) : ∃ s' pos', stepLoop s i = some s' ∧ Inv E objs s' (i + 1) pos' := by
  have hcnt := filter_count (objs.take i) E
  have hPlen : (objs.take i).length = i := by simp; omega
  rw [hPlen] at hcnt
  have hget : s.objects[i]? = some objs[i] := by
    rw [I.objects, List.getElem?_append_right (by omega), List.getElem?_drop]
    rw [show ((objs.take i).filter (· ∉ E)).length + (i - ((objs.take i).filter (· ∉ E)).length) = i by omega]
    exact List.getElem?_eq_getElem hi
  have htake : objs.take (i + 1) = objs.take i ++ [objs[i]] := List.take_succ_eq_append_getElem hi
  have hnew : objs[i] ∉ objs.take i := by
    have := h2
    rw [← List.take_append_drop (i + 1) objs, htake] at this
    have := (List.nodup_append.mp (List.nodup_append.mp this).1).2.2
    intro hm
    exact this _ hm _ (by simp) rfl
  obtain ⟨Ilist, Iobjects, Idup, Iexisting, Iindices, Iposlen, Isorted, Ibound, Iat⟩ := I
  generalize ho : objs[i] = o at *
  generalize hP : objs.take i = P at *
  simp only [stepLoop, hget, Iexisting, Idup]
  by_cases hoE : o ∈ E
  · obtain ⟨A, B, hAB, hA⟩ := List.eq_append_cons_of_mem hoE
    have hB : o ∉ B := by
      rw [hAB] at h1
      have := (List.nodup_append.mp h1).2.1
      simpa using (List.nodup_cons.mp this).1
    have hrest : E.filter (· ∉ P ++ [o]) = A.filter (· ∉ P) ++ B.filter (· ∉ P) := by
      rw [hAB]
      simp only [List.filter_append, List.filter_cons]
      have e1 : A.filter (· ∉ P ++ [o]) = A.filter (· ∉ P) := List.filter_congr (by
        intro x hx
        have : x ≠ o := fun e => hA (e ▸ hx)
        simp [this])
      have e2 : B.filter (· ∉ P ++ [o]) = B.filter (· ∉ P) := List.filter_congr (by
        intro x hx
        have : x ≠ o := fun e => hB (e ▸ hx)
        simp [this])
      rw [e1, e2]
      simp
    have hrest0 : E.filter (· ∉ P) = A.filter (· ∉ P) ++ o :: B.filter (· ∉ P) := by
      rw [hAB]
      simp [List.filter_append, List.filter_cons, hnew]
    have hlist : s.list = P.filter (· ∈ E) ++ (A.filter (· ∉ P) ++ o :: B.filter (· ∉ P)) := by
      rw [Ilist, hrest0]
    have hfind := find_some P A B o hA hnew (P.filter (· ∈ E)).length 0
    rw [← hAB] at hfind
    rw [hfind]
    have hmove : (if (P.filter (· ∈ E)).length ≠ (P.filter (· ∈ E)).length + (A.filter (· ∉ P)).length then
        move s.list ((P.filter (· ∈ E)).length + (A.filter (· ∉ P)).length) (P.filter (· ∈ E)).length else some s.list) =
        some (P.filter (· ∈ E) ++ o :: (A.filter (· ∉ P) ++ B.filter (· ∉ P))) := by
      split
      · rw [hlist]
        generalize P.filter (· ∈ E) = D
        generalize A.filter (· ∉ P) = A'
        generalize B.filter (· ∉ P) = B'
        have e1 : (D ++ (A' ++ o :: B'))[D.length + A'.length]? = some o := by
          rw [List.getElem?_append_right (by omega), List.getElem?_append_right (by omega)]
          simp
        simp only [move, e1]
        rw [if_pos (by simp; omega), List.eraseIdx_append_of_length_le (by omega), List.eraseIdx_append_of_length_le (by omega)]
        simp [insertIdx_length]
      · rename_i hz
        have : A.filter (· ∉ P) = [] := List.eq_nil_of_length_eq_zero (by omega)
        rw [hlist, this]
        simp
    simp only [hmove]
    refine ⟨_, pos ++ [i], rfl, ?_⟩
    have hfil : (P ++ [o]).filter (· ∈ E) = P.filter (· ∈ E) ++ [o] := by simp [List.filter_append, hoE]
    have hfiln : (P ++ [o]).filter (· ∉ E) = P.filter (· ∉ E) := by simp [List.filter_append, hoE]
    have hdE : (P.filter (· ∈ E)).length < E.length := by
      have hnd : (o :: P.filter (· ∈ E)).Nodup := by
        rw [List.nodup_cons]
        refine ⟨by simp [hnew], (List.Nodup.filter _ ?_)⟩
        rw [← hP]
        exact h2.sublist (List.take_sublist _ _)
      have : (o :: P.filter (· ∈ E)).length ≤ E.length := (List.subperm_of_subset hnd (fun x hx => by
        simp at hx
        rcases hx with rfl | hx
        · exact hoE
        · exact hx.2)).length_le
      rw [List.length_cons] at this
      omega
    constructor
    · simp only [htake, hfil, hrest]; simp
    · simp only [htake, hfiln]; exact Iobjects
    · simp only [htake, hfil]; simp
    · simp only [htake]
      rw [hAB, set_map_none P A B o hA hB hnew]
    · rw [Iindices, ← Iposlen]
      rw [List.set_append_right _ _ (by omega)]
      simp only [Nat.sub_self, List.length_append, List.length_singleton]
      obtain ⟨m, hm⟩ : ∃ m, E.length - pos.length = m + 1 := ⟨E.length - pos.length - 1, by rw [Iposlen]; omega⟩
      rw [hm, List.replicate_succ, List.set_cons_zero, show E.length - (pos.length + 1) = m by omega]
      simp
    · simp only [htake, hfil]; simp [Iposlen]
    · rw [List.pairwise_append]
      refine ⟨Isorted, by simp, ?_⟩
      intro a ha b hb
      simp at hb
      subst hb
      exact Ibound a ha
    · intro p hp
      simp at hp
      rcases hp with hp | rfl
      · have := Ibound p hp; omega
      · omega
    · intro t ht
      simp only [htake, hfil]
      simp at ht
      by_cases htl : t < pos.length
      · have e1 : (pos ++ [i]).getD t 0 = pos.getD t 0 := by
          simp [List.getD_eq_getElem?_getD, List.getElem?_append_left htl]
        rw [e1, Iat t htl, List.getElem?_append_left (by rw [← Iposlen]; exact htl)]
      · have htl' : t = pos.length := by omega
        subst htl'
        have e1 : (pos ++ [i]).getD pos.length 0 = i := by simp [List.getD_eq_getElem?_getD]
        rw [e1, Iposlen, List.getElem?_append_right (by omega)]
        simp [hi, ho]
  · rw [find_none P E o hoE]
    refine ⟨_, pos, rfl, ?_⟩
    have hfil : (P ++ [o]).filter (· ∈ E) = P.filter (· ∈ E) := by simp [List.filter_append, hoE]
    have hfiln : (P ++ [o]).filter (· ∉ E) = P.filter (· ∉ E) ++ [o] := by simp [List.filter_append, hoE]
    constructor
    · simp only [htake, hfil]
      rw [Ilist]
      congr 1
      apply List.filter_congr
      intro x hx
      have : x ≠ o := fun e => hoE (e ▸ hx)
      simp [this]
    · simp only [htake, hfiln]
      rw [Iobjects, show i - (P.filter (· ∈ E)).length = (P.filter (· ∉ E)).length by omega, List.set_append_right _ _ (by omega)]
      have hlt : (P.filter (· ∉ E)).length < objs.length := by omega
      rw [List.drop_eq_getElem_cons hlt, Nat.sub_self, List.set_cons_zero]
      simp
    · simp only [htake, hfil]
    · simp only [htake]
      apply List.map_congr_left
      intro x hx
      have : x ≠ o := fun e => hoE (e ▸ hx)
      simp [this]
    · exact Iindices
    · simp only [htake, hfil]; exact Iposlen
    · exact Isorted
    · intro p hp; have := Ibound p hp; omega
    · intro t ht; simp only [htake, hfil]; exact Iat t ht

theorem loop_spec (E objs : List Nat) (h1 : E.Nodup) (h2 : objs.Nodup) (hsub : ∀ o ∈ E, o ∈ objs) (i : Nat) (hi : i ≤ objs.length) :
    ∃ s pos, (List.range i).foldlM stepLoop ⟨E, objs, List.replicate E.length 0, 0, E.map some⟩ = some s ∧ Inv E objs s i pos := by
  induction i with
  | zero => exact ⟨_, [], rfl, by constructor <;> simp⟩
  | succ i ih =>
    obtain ⟨s, pos, h, I⟩ := ih (by omega)
    obtain ⟨s', pos', h', I'⟩ := step_spec E objs h1 h2 hsub s i pos (by omega) I
    refine ⟨s', pos', ?_, I'⟩
    rw [List.range_succ, List.foldlM_append, h]
    simpa using h'

/-- The parts of the saved list: those that were there before, and the others. -/
theorem perm_split (objs E : List Nat) : (objs.filter (· ∈ E) ++ objs.filter (· ∉ E)).Perm objs := by
  induction objs with
  | nil => simp
  | cons x objs ih =>
    by_cases hx : x ∈ E
    · simpa [List.filter_cons, hx] using ih
    · simp only [List.filter_cons, hx, decide_false, not_false_eq_true, decide_true, if_true]
      exact (List.perm_middle).trans (by simpa using ih)

theorem end_spec (E objs : List Nat) (h1 : E.Nodup) (h2 : objs.Nodup) (hsub : ∀ o ∈ E, o ∈ objs) (hne : E ≠ []) :
    ∃ pos : List Nat, decodeObjects E objs = moves (objs.length - E.length) 0 pos (objs.filter (· ∈ E) ++ objs.filter (· ∉ E)) ∧
      pos.length = E.length ∧ (objs.filter (· ∈ E)).length = E.length ∧ pos.Pairwise (· < ·) ∧ (∀ p ∈ pos, p < objs.length) ∧
      ∀ t : Nat, t < pos.length → objs[pos.getD t 0]? = (objs.filter (· ∈ E))[t]? := by
  obtain ⟨s, pos, h, I⟩ := loop_spec E objs h1 h2 hsub objs.length (Nat.le_refl _)
  obtain ⟨Ilist, Iobjects, Idup, Iexisting, Iindices, Iposlen, Isorted, Ibound, Iat⟩ := I
  simp only [List.take_length] at *
  have hD : (objs.filter (· ∈ E)).length = E.length := by
    apply List.Perm.length_eq
    rw [List.perm_ext_iff_of_nodup (h2.filter _) h1]
    intro x
    simp
    exact hsub x
  have hR : E.filter (· ∉ objs) = [] := by
    rw [List.filter_eq_nil_iff]
    intro x hx
    simp [hsub x hx]
  refine ⟨pos, ?_, by omega, hD, Isorted, Ibound, Iat⟩
  have hE : E.length ≠ 0 := by simp [hne]
  simp only [decodeObjects, if_neg hE, h]
  rw [Iindices, Iposlen, hD, Nat.sub_self, Ilist, hR, Iobjects]
  simp only [List.replicate_zero, List.append_nil]
  rw [addAll_append _ _ (h2.filter _) (by intro o ho; simp at ho; simp [ho.2])]
  rw [addAll_same]
  intro o ho
  have : o ∈ objs := List.mem_of_mem_drop ho
  by_cases hoE : o ∈ E <;> simp [this, hoE]

theorem order_spec (list objects : List Nat) (h1 : list.Nodup) (h2 : objects.Nodup) (hsub : ∀ o ∈ list, o ∈ objects) :
    ∃ result : List Nat, decodeObjects list objects = some result ∧ result.Perm objects ∧ (result = objects ↔ list = [] ∨ ∀ o ∈ objects, o ∈ list) := by
  by_cases hne : list = []
  · subst hne
    refine ⟨objects, ?_, .refl _, by simp⟩
    have := addAll_append objects [] h2 (by simp) []
    simp only [List.append_nil, List.nil_append, addAll] at this
    simp [decodeObjects, this]
  · obtain ⟨pos, he, hlen, hD, hs, hb, hat⟩ := end_spec list objects h1 h2 hsub hne
    have hperm := perm_split objects list
    have hcnt := filter_count objects list
    obtain ⟨r, hr, hrp⟩ := moves_spec (objects.length - list.length) pos 0 (objects.filter (· ∈ list) ++ objects.filter (· ∉ list))
      (by intro p hp; rw [hperm.length_eq]; exact hb p hp) (by rw [hperm.length_eq]; omega)
    refine ⟨r, by rw [he, hr], hrp.trans hperm, ?_⟩
    simp only [hne, false_or]
    constructor
    · intro hro
      subst hro
      intro o ho
      rcases Classical.em (o ∈ list) with hol | hol
      · exact hol
      exfalso
      have hN : o ∈ r.filter (· ∉ list) := by simp [ho, hol]
      have hk : 0 < (r.filter (· ∉ list)).length := List.length_pos_of_mem hN
      have hd : 0 < list.length := by cases list with | nil => simp at hne | cons => simp
      cases pos with
      | nil => simp at hlen; omega
      | cons p ps =>
        have hps : ∀ q ∈ ps, 0 < q := by
          intro q hq
          have := (List.pairwise_cons.mp hs).1 q hq
          omega
        have h0 := hat 0 (by simp)
        simp at h0
        have hp := hb p (by simp)
        have hnd : (r.filter (· ∈ list) ++ r.filter (· ∉ list)).Nodup := hperm.nodup_iff.mpr h2
        have hDh : (r.filter (· ∈ list) ++ r.filter (· ∉ list))[0]? = r[p]? := by
          rw [List.getElem?_append_left (by omega), h0]
        by_cases hp0 : p = 0
        · subst hp0
          simp only [moves] at hr
          rw [if_pos (by omega)] at hr
          obtain ⟨l, hl1, -, -, hl⟩ := move_spec (r.filter (· ∈ list) ++ r.filter (· ∉ list)) (r.length - list.length + 0) 0
            (by rw [hperm.length_eq]; omega) (by rw [hperm.length_eq]; omega)
          rw [hl1] at hr
          have hh := moves_head _ _ _ _ _ hps (by omega) hr
          rw [hl] at hh
          simp only [List.insertIdx_zero, List.head?_cons] at hh
          rw [List.head?_eq_getElem?] at hh
          rw [← hDh, ← List.getElem?_eq_getElem, List.getElem?_inj (by rw [hperm.length_eq]; omega) hnd] at hh
          omega
        · have hh := moves_head _ _ _ _ _ (by intro q hq; simp at hq; rcases hq with rfl | hq; omega; exact hps q hq) (by omega) hr
          rw [List.head?_eq_getElem?, List.head?_eq_getElem?, hDh, List.getElem?_inj (by omega) h2] at hh
          omega
    · intro hall
      have e1 : objects.filter (· ∈ list) = objects := by
        rw [List.filter_eq_self]; intro x hx; simp [hall x hx]
      have e2 : objects.filter (· ∉ list) = [] := by
        rw [List.filter_eq_nil_iff]; intro x hx; simp [hall x hx]
      rw [e1] at hD hat hr
      rw [e2, List.append_nil, hD, Nat.sub_self, moves_none] at hr
      · simpa using hr.symm
      · intro t ht
        have := hat t ht
        simp only [List.getD_eq_getElem?_getD, List.getElem?_eq_getElem ht, Option.getD_some] at this
        rw [List.getElem?_inj (hb _ (List.getElem_mem ht)) h2] at this
        omega

end Verif.BinaryList
