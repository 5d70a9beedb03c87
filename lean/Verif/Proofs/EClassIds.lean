import Verif.Proofs.EClassRun
set_option autoImplicit false
namespace Verif.EClass
open Verif.EList Verif.Notify Verif.Spec

theorem scan_hit (l : List Nat) (f i j : Nat) (hij : i ≤ j) (hj : l[j]? = some f) :
    ∃ k : Nat, scan l f i = k ∧ i ≤ k ∧ k ≤ j ∧ l[k]? = some f := by
  have hlt : j < l.length := (List.getElem?_eq_some_iff.1 hj).1
  fun_induction scan l f i with
  | case1 i h he => exact ⟨i, rfl, Nat.le_refl _, hij, by rw [List.getElem?_eq_getElem h, he]⟩
  | case2 i h he ih =>
    have : i ≠ j := by
      rintro rfl
      rw [List.getElem?_eq_getElem h] at hj
      exact he (by simpa using hj)
    obtain ⟨k, e, h1, h2, h3⟩ := ih (by omega)
    exact ⟨k, e, by omega, h2, h3⟩
  | case3 i h => omega

theorem scan_miss (l : List Nat) (f i : Nat) (h : f ∉ l) : scan l f i = -1 := by
  fun_induction scan l f i with
  | case1 i hi he => exact absurd (he ▸ List.getElem_mem hi) h
  | case2 i hi he ih => exact ih
  | case3 i hi => rfl

/-- A member of the list of `c` is an own member of some class whose list is a block of that of `c`. -/
theorem block (k : Derived) (hk : ∀ s l, (kOf k).contrib s l = l) (w : W) (rank : Nat → Nat) (hr : RankOf rank w) (all : Nat → List Nat)
    (hs : Solves (kOf k) w all) (hc : CacheOk (kOf k) all w) (f : Nat) :
    ∀ r c, rank c = r → f ∈ all c → (w.cache (kOf k).name c).isSome →
      ∃ (d : Nat) (l : List Nat) (off : Nat), f ∈ (kOf k).own w d ∧ w.cache (kOf k).name d = some l ∧ (∀ (i : Nat) (x : Nat), l[i]? = some x → (all c)[off + i]? = some x) := by
  intro r
  induction r using Nat.strongRecOn with
  | _ r ih =>
    intro c hrc hf hcc
    obtain ⟨l, hl⟩ := Option.isSome_iff_exists.1 hcc
    have hlc := hc.right c l hl
    have hsc := hs c
    rw [hsc] at hf
    rcases List.mem_append.1 hf with hf | hf
    · obtain ⟨s, hss, hfs⟩ := List.mem_flatMap.1 hf
      rw [hk] at hfs
      obtain ⟨d, l', off, h1, h2, h3⟩ := ih (rank s) (by have := hr c s hss; omega) s rfl hfs (hc.up c l hl s hss)
      obtain ⟨pre, post, hpp⟩ := List.append_of_mem hss
      refine ⟨d, l', (pre.flatMap fun s => (kOf k).contrib s (all s)).length + off, h1, h2, fun i x hx => ?_⟩
      have := h3 i x hx
      rw [hsc, hpp, List.flatMap_append, List.flatMap_cons, hk s]
      have hlt : off + i < (all s).length := (List.getElem?_eq_some_iff.1 this).1
      rw [List.append_assoc, List.getElem?_append_right (by omega), List.append_assoc,
        List.getElem?_append_left (by omega)]
      rw [← this]; congr 1; omega
    · exact ⟨c, l, 0, hf, hl, fun i x hx => by rw [← hlc, Nat.zero_add]; exact hx⟩

/-- IDs found by scanning from the ID stored in the member. -/
theorem ids_ok (k : Derived) (hk : ∀ s l, (kOf k).contrib s l = l) (w : W) (rank : Nat → Nat) (hr : RankOf rank w) (all : Nat → List Nat)
    (hs : Solves (kOf k) w all) (hc : CacheOk (kOf k) all w) (c : Nat) (hcc : w.cache (kOf k).name c = some (all c)) (ids : Nat → Int)
    (hids : ∀ d l i f, w.cache (kOf k).name d = some l → ((kOf k).own w d)[i]? = some f →
      ids f = ((l.length - ((kOf k).own w d).length + i : Nat) : Int)) (f : Nat) (id : Int)
    (hid : id = if 0 ≤ ids f then scan (all c) f (ids f).toNat else -1) :
    (f ∈ all c → 0 ≤ id ∧ id < ((all c).length : Int) ∧ (all c)[id.toNat]? = some f) ∧
    (∀ i : Nat, ((kOf k).own w c)[i]? = some f → id = ((((w.supers c).flatMap all).length + i : Nat) : Int)) ∧
    (f ∉ all c → id = -1) := by
  have hfl : (w.supers c).flatMap (fun s => (kOf k).contrib s (all s)) = (w.supers c).flatMap all :=
    flatMap_congr' _ _ _ (fun x _ => hk x _)
  have hsc := hs c
  rw [hfl] at hsc
  refine ⟨?_, ?_, ?_⟩
  · intro hf
    obtain ⟨d, l, off, h1, h2, h3⟩ := block k hk w rank hr all hs hc f _ c rfl hf (by rw [hcc]; rfl)
    obtain ⟨i, hi⟩ := List.getElem?_of_mem h1
    have hidf := hids d l i f h2 hi
    have hld := hc.right d l h2
    have hpos : l[l.length - ((kOf k).own w d).length + i]? = some f := by
      rw [hld, hs d, List.getElem?_append_right (by simp)]
      rw [← hi]; congr 1
      simp
    have hj := h3 _ f hpos
    obtain ⟨m, e, g1, g2, g3⟩ := scan_hit (all c) f (ids f).toNat _ (by rw [hidf]; omega) hj
    rw [if_pos (by omega), e] at hid
    have hm : m < (all c).length := (List.getElem?_eq_some_iff.1 g3).1
    subst hid
    exact ⟨by omega, by omega, by simpa using g3⟩
  · intro i hi
    have hidf := hids c _ i f hcc hi
    have hlen : (all c).length - ((kOf k).own w c).length = ((w.supers c).flatMap all).length := by
      rw [hsc, List.length_append]; omega
    rw [hlen] at hidf
    have hpos : (all c)[((w.supers c).flatMap all).length + i]? = some f := by
      rw [hsc, List.getElem?_append_right (by omega), ← hi]; congr 1; omega
    obtain ⟨m, e, g1, g2, g3⟩ := scan_hit (all c) f (ids f).toNat _ (by rw [hidf]; omega) hpos
    rw [if_pos (by omega), e] at hid
    omega
  · intro hf
    rw [hid]
    split
    · exact scan_miss _ _ _ hf
    · rfl

/-- Following the super types. -/
theorem reaches_mem (w : W) (rank : Nat → Nat) (hr : RankOf rank w) (all : Nat → List Nat) (hs : Solves kSupers w all) (a : Nat) :
    ∀ r b, rank b = r → (a ∈ all b ↔ ∃ s ∈ w.supers b, Hier.Reaches w.supers s a) := by
  intro r
  induction r using Nat.strongRecOn with
  | _ r ih =>
    intro b hrb
    have hsb := hs b
    rw [hsb]
    simp only [kSupers, List.append_nil, List.mem_flatMap, List.mem_append, List.mem_singleton]
    constructor
    · rintro ⟨s, hss, h | h⟩
      · obtain ⟨t, ht, hre⟩ := (ih (rank s) (by have := hr b s hss; omega) s rfl).1 h
        exact ⟨s, hss, .up ht hre⟩
      · exact ⟨s, hss, h ▸ .refl _⟩
    · rintro ⟨s, hss, hre⟩
      refine ⟨s, hss, ?_⟩
      cases hre with
      | refl => exact .inr rfl
      | up ht hre => exact .inl ((ih (rank s) (by have := hr b s hss; omega) s rfl).2 ⟨_, ht, hre⟩)

theorem reaches_iff (w : W) (rank : Nat → Nat) (hr : RankOf rank w) (all : Nat → List Nat) (hs : Solves kSupers w all) (a b : Nat) :
    Hier.Reaches w.supers b a ↔ b = a ∨ a ∈ all b := by
  rw [reaches_mem w rank hr all hs a _ b rfl]
  constructor
  · intro h
    cases h with
    | refl => exact .inl rfl
    | up h r => exact .inr ⟨_, h, r⟩
  · rintro (rfl | ⟨s, h, r⟩)
    · exact .refl _
    · exact .up h r

end Verif.EClass
