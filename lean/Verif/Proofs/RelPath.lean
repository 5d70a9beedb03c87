import Verif.Proofs.Fragment
import Verif.Spec.RelPath
/-!
# Proofs about relative paths
-/

namespace Verif.RelPath
open Verif.Fragment Verif.RelPath.Spec

variable {W : World} {P : Parents}

/-- The number of steps from `o` to the first `a`. -/
inductive Way (W : World) (P : Parents) (a : Nat) : Nat → Nat → Prop where
  | here : Way W P a 0 a
  | up (n o c : Nat) : o ≠ a → Child W P c o → Way W P a n c → Way W P a (n + 1) o

theorem Way.unique {a o : Nat} : ∀ {n m : Nat}, Way W P a n o → Way W P a m o → n = m := by
  intro n m h
  induction h generalizing m with
  | here =>
    intro h2
    cases h2 with
    | here => rfl
    | up _ _ _ h => exact absurd rfl h
  | up n o c hne hc _ ih =>
    intro h2
    cases h2 with
    | here => exact absurd rfl hne
    | up m _ c' _ hc' h3 =>
      have : c = c' := by
        have h4 := hc.1
        rw [hc'.1] at h4
        simpa using h4.symm
      subst this
      rw [ih h3]

theorem Below.way {a o : Nat} (h : Below W P a o) : ∃ n : Nat, Way W P a n o := by
  induction h with
  | child o hc =>
    by_cases ho : o = a
    · subst ho; exact ⟨0, Way.here⟩
    · exact ⟨1, Way.up 0 o a ho hc Way.here⟩
  | step o c hc _ ih =>
    obtain ⟨n, hn⟩ := ih
    by_cases ho : o = a
    · subst ho; exact ⟨0, Way.here⟩
    · exact ⟨n + 1, Way.up n o c ho hc hn⟩

theorem followAll_append {s : Str} {c o : Nat} (h : forSegment W c s = .obj o) : ∀ (x : Nat) (segs : List Str),
    followAll W x segs = .obj c → followAll W x (segs ++ [s]) = .obj o := by
  intro x segs
  induction segs generalizing x with
  | nil => intro hx; simp [followAll] at hx; subst hx; simp [followAll, h]
  | cons t segs ih =>
    intro hx
    simp only [followAll, List.cons_append] at hx ⊢
    cases hs : forSegment W x t with
    | obj y => rw [hs] at hx; simp only at hx ⊢; exact ih y hx
    | nil => rw [hs] at hx; simp at hx
    | panic => rw [hs] at hx; simp at hx

theorem climbTo_spec {anc : Option Nat} {a : Nat} (hanc : anc = some a ∨ anc = none ∧ P.container a = none) :
    ∀ (n x : Nat), Way W P a n x → x ≠ a → ∀ visited : List Nat,
      (∀ v ∈ visited, ∃ m : Nat, n < m ∧ Way W P a m v) →
      ∃ segs : List Str, segs ≠ [] ∧ (∀ s ∈ segs, 47 ∉ s) ∧ followAll W a segs = .obj x ∧
        ∀ fuel : Nat, n + 1 ≤ fuel → ∀ path : List Str,
          climbTo W P anc fuel x visited path = some (a, segs ++ path) := by
  intro n
  induction n with
  | zero =>
    intro x hw hx
    cases hw with
    | here => exact absurd rfl hx
  | succ n ih =>
    intro x hw hx visited hv
    have hw0 := hw
    cases hw with
    | up _ _ c _ hc hw' =>
    obtain ⟨hcon, f, hf, hheld, haddr⟩ := hc
    obtain ⟨s, hs1, hs2, hs3⟩ := segment_spec W c f x hheld haddr
    have hnv : x ∉ visited := by
      intro hm
      obtain ⟨m, hlt, hm⟩ := hv x hm
      have := Way.unique hw0 hm
      omega
    by_cases hca : c = a
    · subst hca
      refine ⟨[s], by simp, by simpa using hs2, by simp [followAll, hs3], ?_⟩
      intro fuel hfuel path
      obtain ⟨k, rfl⟩ : ∃ k, fuel = k + 2 := ⟨fuel - 2, by omega⟩
      rw [climbTo]
      simp only [hcon, hnv, if_false, hf, hs1]
      rcases hanc with h | ⟨h, hroot⟩
      · simp [h]
      · simp only [h, reduceCtorEq, if_false, climbTo, hroot]
        rfl
    · have hv' : ∀ v ∈ x :: visited, ∃ m : Nat, n < m ∧ Way W P a m v := by
        intro v hm
        rcases List.mem_cons.1 hm with rfl | hm
        · exact ⟨n + 1, by omega, hw0⟩
        · obtain ⟨m, h1, h2⟩ := hv v hm
          exact ⟨m, by omega, h2⟩
      obtain ⟨segs, h1, h2, h3, h4⟩ := ih c hw' hca (x :: visited) hv'
      refine ⟨segs ++ [s], by simp, ?_, followAll_append hs3 a segs h3, ?_⟩
      · intro t ht
        rcases List.mem_append.1 ht with ht | ht
        · exact h2 t ht
        · simp only [List.mem_singleton] at ht; rw [ht]; exact hs2
      · intro fuel hfuel path
        obtain ⟨k, rfl⟩ : ∃ k, fuel = k + 1 := ⟨fuel - 1, by omega⟩
        rw [climbTo]
        have hne : ¬ anc = some c := by
          rcases hanc with h | ⟨h, -⟩
          · rw [h]; simp only [Option.some.injEq]; exact fun e => hca e.symm
          · rw [h]; simp
        simp only [hcon, hnv, if_false, hf, hs1, hne]
        rw [h4 k (by omega) (s :: path)]
        simp

theorem relative_spec {anc : Option Nat} {a o : Nat} (hanc : anc = some a ∨ anc = none ∧ P.container a = none)
    (h : Below W P a o) (hne : o ≠ a) :
    ∃ (k : Nat) (segs : List Str), segs ≠ [] ∧ (∀ s ∈ segs, 47 ∉ s) ∧ followAll W a segs = .obj o ∧
      ∀ n : Nat, k ≤ n → relativePath W P n anc o = some (join 47 segs) := by
  obtain ⟨n, hw⟩ := Below.way h
  obtain ⟨segs, h1, h2, h3, h4⟩ := climbTo_spec hanc n o hw hne [] (by simp)
  refine ⟨n + 1, segs, h1, h2, h3, fun fuel hf => ?_⟩
  rw [relativePath, h4 fuel hf []]
  have : ¬ anc = some o := by
    rcases hanc with h | ⟨h, -⟩
    · rw [h]; simp only [Option.some.injEq]; exact fun e => hne e.symm
    · rw [h]; simp
  rw [if_neg this]
  simp only [List.append_nil]
  rw [if_neg]
  rcases hanc with h | ⟨h, -⟩
  · rw [h]; simp
  · rw [h]; simp

theorem follow_followAll : ∀ (segs : List Str) (a o : Nat), followAll W a segs = .obj o → follow W (.obj a) segs = .obj o := by
  intro segs
  induction segs with
  | nil => intro a o h; simpa [followAll, follow] using h
  | cons s segs ih =>
    intro a o h
    simp only [followAll, follow] at h ⊢
    cases hs : forSegment W a s with
    | obj y => rw [hs] at h; exact ih y o h
    | nil => rw [hs] at h; simp at h
    | panic => rw [hs] at h; simp at h

end Verif.RelPath
