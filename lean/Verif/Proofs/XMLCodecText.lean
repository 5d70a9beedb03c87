import Verif.Spec.XMLCodec
import Verif.Proofs.XMLLex
import Verif.Proofs.XMLString

/-!
# Texts of fragments and names
-/

namespace Verif.XMLCodec

open Verif.XMLString (Text)
open Verif.XMLLex (Name LegalName Literal inRange)
open Spec

variable {D : Type}

theorem split_ne (c : Char) (t : Text) : split c t ≠ [] := by
  cases t with
  | nil => simp [split]
  | cons x r =>
    simp only [split]
    split
    · simp
    · split <;> simp

theorem split_none (c : Char) (t : Text) (h : c ∉ t) : split c t = [t] := by
  induction t with
  | nil => rfl
  | cons x r ih =>
    simp only [List.mem_cons, not_or] at h
    simp only [split]
    rw [if_neg (fun e => h.1 e.symm), ih h.2]

theorem split_cons (c : Char) (t r : Text) (h : c ∉ t) : split c (t ++ c :: r) = t :: split c r := by
  induction t with
  | nil => simp [split]
  | cons x t ih =>
    simp only [List.mem_cons, not_or] at h
    rw [List.cons_append, split, if_neg (fun e => h.1 e.symm), ih h.2]

theorem split_join (c : Char) (l : List Text) (hl : l ≠ []) (h : ∀ t ∈ l, c ∉ t) : split c (join c l) = l := by
  induction l with
  | nil => exact absurd rfl hl
  | cons t l ih =>
    cases l with
    | nil => rw [join, split_none c t (h t (by simp))]
    | cons t' l' =>
      rw [join, split_cons c t _ (h t (by simp)), ih (by simp) (fun x hx => h x (by simp [hx]))]
      intro hh; simp at hh

theorem join_cons (c : Char) (t : Text) (l : List Text) (hl : l ≠ []) : join c (t :: l) = t ++ c :: join c l := by
  cases l with
  | nil => exact absurd rfl hl
  | cons t' l' => rfl

theorem mem_join {c x : Char} {l : List Text} (h : x ∈ join c l) : x = c ∨ ∃ t ∈ l, x ∈ t := by
  induction l with
  | nil => simp [join] at h
  | cons t l ih =>
    cases l with
    | nil => exact .inr ⟨t, by simp, h⟩
    | cons t' l' =>
      rw [join_cons c t _ (by simp)] at h
      rcases List.mem_append.1 h with h | h
      · exact .inr ⟨t, by simp, h⟩
      · rcases List.mem_cons.1 h with h | h
        · exact .inl h
        · rcases ih h with h | ⟨u, hu, h⟩
          · exact .inl h
          · exact .inr ⟨u, List.mem_cons_of_mem _ hu, h⟩

/-! ## Numbers -/

theorem digitChar (n : Nat) (h : n < 10) : XMLLex.isDigit (Char.ofNat (48 + n)) = true ∧ (Char.ofNat (48 + n)).toNat - 48 = n := by
  have : n = 0 ∨ n = 1 ∨ n = 2 ∨ n = 3 ∨ n = 4 ∨ n = 5 ∨ n = 6 ∨ n = 7 ∨ n = 8 ∨ n = 9 := by omega
  rcases this with h | h | h | h | h | h | h | h | h | h <;> subst h <;> decide

theorem itoa_digits (n : Nat) : ∀ c ∈ itoa n, XMLLex.isDigit c = true := by
  induction n using Nat.strongRecOn with
  | _ n ih =>
    rw [itoa]
    split
    · simp only [List.mem_singleton, forall_eq]; exact (digitChar n (by assumption)).1
    · intro c hc
      rcases List.mem_append.1 hc with hc | hc
      · exact ih (n / 10) (by omega) c hc
      · simp only [List.mem_singleton] at hc; subst hc; exact (digitChar _ (by omega)).1

theorem digits_append (a b : Text) (acc : Nat) : digits acc (a ++ b) = (digits acc a).bind fun n => digits n b := by
  induction a generalizing acc with
  | nil => rfl
  | cons c a ih =>
    simp only [List.cons_append, digits]
    split
    · exact ih _
    · rfl

theorem digits_itoa (n : Nat) : digits 0 (itoa n) = some n := by
  induction n using Nat.strongRecOn with
  | _ n ih =>
    rw [itoa]
    split
    · rename_i h
      simp [digits, (digitChar n h).1, (digitChar n h).2]
    · have h : n % 10 < 10 := by omega
      rw [digits_append, ih (n / 10) (by omega)]
      simp only [Option.bind_some, digits, (digitChar _ h).1, (digitChar _ h).2, if_pos]
      congr 1
      omega

theorem itoa_ne (n : Nat) : itoa n ≠ [] := by
  rw [itoa]; split <;> simp

theorem isDigit_not {c : Char} (h : XMLLex.isDigit c = true) : c ≠ '-' ∧ c ≠ '+' ∧ c ≠ '.' ∧ c ≠ '/' ∧ c ≠ ' ' := by
  refine ⟨?_, ?_, ?_, ?_, ?_⟩ <;> (rintro rfl; revert h; decide)

theorem atoi_itoa (n : Nat) (h : n < 2 ^ 63) : atoi (itoa n) = n := by
  have hd := itoa_digits n
  have hh : ∀ c, (itoa n).head? = some c → XMLLex.isDigit c = true := by
    intro c hc
    exact hd c (List.mem_of_head? hc)
  have h1 : (itoa n).head? ≠ some '-' := fun e => by simpa using (isDigit_not (hh _ e)).1
  have h2 : (itoa n).head? ≠ some '+' := fun e => by simpa using (isDigit_not (hh _ e)).2.1
  have e1 : ((itoa n).head? == some '-') = false := by simpa using h1
  have e2 : ((itoa n).head? == some '+') = false := by simpa using h2
  simp only [atoi, e1, e2, Bool.or_self, Bool.false_eq_true, if_false, itoa_ne, digits_itoa]
  omega

theorem lastIndex_none (c : Char) (t : Text) (h : c ∉ t) : lastIndex c t = none := by
  induction t with
  | nil => rfl
  | cons x r ih =>
    simp only [List.mem_cons, not_or] at h
    simp only [lastIndex, ih h.2]
    rw [if_neg (fun e => h.1 e.symm)]

theorem lastIndex_append (c : Char) (a b : Text) (h : c ∉ b) : lastIndex c (a ++ c :: b) = some a.length := by
  induction a with
  | nil => simp [lastIndex, lastIndex_none c b h]
  | cons x a ih => simp [lastIndex, ih]

/-! ## Names -/

theorem dropWhile_none (s : Text) (h : ':' ∉ s) : s.dropWhile (fun x => decide (x ≠ ':')) = [] := by
  induction s with
  | nil => rfl
  | cons c s ih =>
    simp only [List.mem_cons, not_or] at h
    rw [List.dropWhile_cons_of_pos (by simp; exact fun e => h.1 e.symm), ih h.2]

theorem rawName_plain (s : Text) (h : ':' ∉ s) : XMLLex.rawName s = ⟨[], s⟩ := by
  simp only [XMLLex.rawName, XMLLex.splitName, List.count_eq_zero.2 h, dropWhile_none s h]
  simp

theorem rawName_prefixed (p s : Text) (hp : ':' ∉ p) (hs : ':' ∉ s) (hp' : p ≠ []) (hs' : s ≠ []) :
    XMLLex.rawName (p ++ ':' :: s) = ⟨p, s⟩ := by
  have e1 : (p ++ ':' :: s).takeWhile (· ≠ ':') = p := by
    rw [List.takeWhile_append_of_pos (by intro c hc; simp; rintro rfl; exact hp hc)]
    simp
  have e2 : (p ++ ':' :: s).dropWhile (· ≠ ':') = ':' :: s := by
    rw [List.dropWhile_append_of_pos (by intro c hc; simp; rintro rfl; exact hp hc)]
    simp
  have e3 : (p ++ ':' :: s).count ':' = 1 := by
    simp [List.count_append, List.count_eq_zero.2 hp, List.count_eq_zero.2 hs]
  simp only [XMLLex.rawName, XMLLex.splitName, e3, e1, e2]
  simp [hp', hs']

theorem splitQName_prefixed (p s : Text) (hp : ':' ∉ p) (hp' : p ≠ []) : splitQName (p ++ ':' :: s) = (p, s) := by
  have e1 : (p ++ ':' :: s).takeWhile (· ≠ ':') = p := by
    rw [List.takeWhile_append_of_pos (by intro c hc; simp; rintro rfl; exact hp hc)]
    simp
  have e2 : (p ++ ':' :: s).dropWhile (· ≠ ':') = ':' :: s := by
    rw [List.dropWhile_append_of_pos (by intro c hc; simp; rintro rfl; exact hp hc)]
    simp
  have e3 : (p ++ ':' :: s).head? ≠ some ':' := by
    cases p with
    | nil => exact absurd rfl hp'
    | cons c p => simp at hp ⊢; exact fun e => hp.1 e.symm
  rw [splitQName, if_pos ⟨by simp, e3⟩, e1, e2]; rfl

theorem splitQName_plain (s : Text) (h : ':' ∉ s) : splitQName s = ([], s) := by
  rw [splitQName, if_neg (fun e => h e.1)]

theorem legal_prefixed {p s : Text} (hp : LegalName p) (hp' : ':' ∉ p) (hs : LegalName s) (hs' : ':' ∉ s) : LegalName (p ++ ':' :: s) := by
  obtain ⟨⟨c, t, e, hc⟩, h2, -⟩ := hp
  refine ⟨⟨c, t ++ ':' :: s, by rw [e]; rfl, hc⟩, ?_, ?_⟩
  · intro x hx
    rcases List.mem_append.1 hx with hx | hx
    · exact h2 x hx
    · rcases List.mem_cons.1 hx with rfl | hx
      · decide
      · exact hs.2.1 x hx
  · simp [List.count_append, List.count_eq_zero.2 hp', List.count_eq_zero.2 hs']

theorem legal_ne {s : Text} (h : LegalName s) : s ≠ [] := by
  obtain ⟨⟨c, t, e, -⟩, -⟩ := h
  rw [e]; simp

/-! ## Features -/

theorem findFeature_eq (env : Env D) (cls : Nat) (hn : ((env.features cls).map Feature.name).Nodup) (p : Feature × Nat)
    (hp : p ∈ (env.features cls).zipIdx) : findFeature env cls p.1.name = some (p.2, p.1) := by
  obtain ⟨f, i⟩ := p
  have hi := List.mem_zipIdx_iff_getElem?.1 hp
  simp only at hi
  have key : ∀ q ∈ (env.features cls).zipIdx.reverse, q.1.name = f.name → q = (f, i) := by
    rintro ⟨f', i'⟩ hq hname
    have hi' := List.mem_zipIdx_iff_getElem?.1 (List.mem_reverse.1 hq)
    simp only at hi' hname
    have : i' = i := by
      obtain ⟨h1, e1⟩ := List.getElem?_eq_some_iff.1 hi
      obtain ⟨h2, e2⟩ := List.getElem?_eq_some_iff.1 hi'
      have := List.Nodup.getElem_inj_iff hn (i := i') (j := i) (hi := by simpa using h2) (hj := by simpa using h1)
      simp only [List.getElem_map, e1, e2] at this
      exact this.1 hname
    subst this
    rw [hi] at hi'
    cases hi'; rfl
  rw [findFeature]
  cases hf : (env.features cls).zipIdx.reverse.find? (fun p => decide (p.1.name = f.name)) with
  | none =>
    have := List.find?_eq_none.1 hf (f, i) (List.mem_reverse.2 hp)
    simp at this
  | some q =>
    have h1 := List.mem_of_find?_eq_some hf
    have h2 := List.find?_some hf
    simp only [decide_eq_true_eq] at h2
    rw [key q h1 h2]; rfl

end Verif.XMLCodec
