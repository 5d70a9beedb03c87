import Verif.Proofs.DeepEqual

/-!
# C33: structural equality
-/

namespace Verif.DeepEqual

/-- C33, what `Equals` decides (partial: only the features that the class declares itself are compared, see
`C33_inherited_violated`). On finite object graphs, cycles included, it ends and is true exactly if some one-to-one pairing of
objects relates `a` and `b` and paired objects have the same content. -/
theorem C33_equals_partial (M : Meta) (H : Heap) (os : List Nat) (hc : Closed H os) (a b : Nat) (ha : a ∈ os) (hb : b ∈ os) (n : Nat) (hn : os.length < n) :
    ∃ r : Bool, equals M H n (some a) (some b) = some r ∧ (r = true ↔ ∃ R, Pairing M H M.features R ∧ R a b) := by
  obtain ⟨r, hr⟩ := equals_ends (M := M) hc ha hb hn
  exact ⟨r, hr, equals_some hr⟩

/-- C33, `EqualsAll`: the same with one pairing for all elements. -/
theorem C33_equals_all_partial (M : Meta) (H : Heap) (n : Nat) (l1 l2 : List Nat) (r : Bool) (h : equalsAll M H n l1 l2 = some r) :
    r = true ↔ ∃ R, Pairing M H M.features R ∧ List.Forall₂ R l1 l2 := equalsAll_some h

/-- C33, `EqualsAll` ends whenever `Equals` does. -/
theorem C33_equals_all_ends (M : Meta) (H : Heap) (os : List Nat) (hc : Closed H os) (l1 l2 : List Nat) (h1 : ∀ a ∈ l1, a ∈ os) (h2 : ∀ b ∈ l2, b ∈ os) (n : Nat)
    (hn : os.length < n) : ∃ r, equalsAll M H n l1 l2 = some r := equalsAll_ends hc h1 h2 hn

/-- C33, reflexivity. -/
theorem C33_reflexive_partial (M : Meta) (H : Heap) (n : Nat) (a : Option Nat) : equals M H (n + 1) a a = some true := by
  cases a with
  | none => rfl
  | some a => simp [equals, equalsObj]

/-- C33, symmetry. -/
theorem C33_symmetric_partial (M : Meta) (H : Heap) (n k : Nat) (a b : Option Nat) (r s : Bool) (h1 : equals M H n a b = some r) (h2 : equals M H k b a = some s) : r = s := by
  cases a with
  | none => cases b <;> simp_all [equals]
  | some a =>
    cases b with
    | none => simp_all [equals]
    | some b =>
      have e1 := equals_some h1
      have e2 := equals_some h2
      rw [Bool.eq_iff_iff, e1, e2]
      constructor
      · rintro ⟨R, hR, h⟩; exact ⟨R, hR, hR.symm _ _ h⟩
      · rintro ⟨R, hR, h⟩; exact ⟨R, hR, hR.symm _ _ h⟩

/-- C33, transitivity, for objects that reach no common object (partial: see `C33_transitive_violated`). -/
theorem C33_transitive_partial (M : Meta) (H : Heap) (n k l : Nat) (a b c : Nat) (r : Bool)
    (hab : ∀ x, Reach M H a x → ¬ Reach M H b x) (hbc : ∀ x, Reach M H b x → ¬ Reach M H c x) (hac : ∀ x, Reach M H a x → ¬ Reach M H c x)
    (h1 : equals M H n (some a) (some b) = some true) (h2 : equals M H k (some b) (some c) = some true) (h3 : equals M H l (some a) (some c) = some r) :
    r = true := by
  obtain ⟨R1, hR1, r1⟩ := (equals_some h1).1 rfl
  obtain ⟨R2, hR2, r2⟩ := (equals_some h2).1 rfl
  exact (equals_some h3).2 ⟨_, comp_pairing hR1 hR2 hab hbc hac, Or.inl ⟨b, r1, r2, .refl, .refl, .refl⟩⟩

/-- C33, differences are seen: two different objects are not equal if they are proxies of different URIs, or only one is a
proxy, or their classes differ, or some feature declared by their class and not derived is set in one of them only, or has
different attribute values, or lists of different lengths. -/
theorem C33_differences_partial (M : Meta) (H : Heap) (n : Nat) (a b : Nat) (r : Bool) (hab : a ≠ b) (h : equals M H n (some a) (some b) = some r)
    (hd : H.uri a ≠ H.uri b ∨ (H.uri a = none ∧ (H.cls a ≠ H.cls b ∨ ∃ f ∈ M.features (H.cls a), M.derived f = false ∧
      (H.isSet a f ≠ H.isSet b f ∨ (H.isSet a f = true ∧
        ((M.kind f = .attr ∧ H.attr a f ≠ H.attr b f) ∨ (M.kind f = .attrs ∧ H.attrs a f ≠ H.attrs b f) ∨
         (M.kind f = .refs ∧ (H.refs a f).length ≠ (H.refs b f).length))))))) : r = false := by
  cases hr : r with
  | false => rfl
  | true =>
    exfalso
    subst hr
    obtain ⟨R, hR, hr⟩ := (equals_some h).1 rfl
    rcases hR.same a b hr with h1 | ⟨h1, h2⟩ | ⟨h1, h2, h3, h4⟩
    · exact hab h1
    · rcases hd with hd | ⟨hd, -⟩
      · exact hd h2
      · rw [hd] at h1; simp at h1
    · rcases hd with hd | ⟨-, hd | ⟨f, hf, hdf, hd⟩⟩
      · exact hd (h1.trans h2.symm)
      · exact hd h3
      · have hs := h4 f hf hdf
        rcases hd with hd | ⟨hset, ⟨hk, hd⟩ | ⟨hk, hd⟩ | ⟨hk, hd⟩⟩
        · exact hd hs.set
        · exact hd (hs.attr hk hset)
        · exact hd (hs.attrs hk hset)
        · exact hd (hs.refs hk hset).length_eq

/-- C33, differences at any depth: referenced objects of different equal objects that are no proxies are equal. -/
theorem C33_deep_partial (M : Meta) (H : Heap) (n k : Nat) (a b : Nat) (hab : a ≠ b) (hu : H.uri a = none) (h : equals M H n (some a) (some b) = some true)
    (f : Nat) (hf : f ∈ M.features (H.cls a)) (hd : M.derived f = false) (hs : H.isSet a f = true) (s : Bool) :
    (M.kind f = .ref → equals M H k (some (H.ref a f)) (some (H.ref b f)) = some s → s = true) ∧
    (M.kind f = .refs → equalsAll M H k (H.refs a f) (H.refs b f) = some s → s = true) := by
  obtain ⟨R, hR, hr⟩ := (equals_some h).1 rfl
  rcases hR.same a b hr with h1 | ⟨h1, h2⟩ | ⟨h1, h2, h3, h4⟩
  · exact absurd h1 hab
  · rw [hu] at h1; simp at h1
  · have hsf := h4 f hf hd
    exact ⟨fun hk h => (equals_some h).2 ⟨R, hR, hsf.ref hk hs⟩, fun hk h => (equalsAll_some h).2 ⟨R, hR, hsf.refs hk hs⟩⟩

/-! ### Nodes: class 0 with an attribute 10, a reference 11 to the next node and a list 12 of nodes -/

def nodes : Meta where
  features := fun c => if c = 0 then [10, 11, 12] else []
  inherited := fun _ => []
  derived := fun _ => false
  kind := fun f => if f = 10 then .attr else if f = 11 then .ref else .refs

/-- cycles of two nodes, 0 and 1, 2 and 3, 4 and 5; node 6 points to node 0; attributes of 4 and 5 are different -/
def cycles : Heap where
  cls := fun _ => 0
  uri := fun _ => none
  isSet := fun _ f => f = 11 || f = 10
  attr := fun o _ => if o = 5 then some 8 else some 7
  attrs := fun _ _ => []
  ref := fun o _ => if o = 0 then 1 else if o = 1 then 0 else if o = 2 then 3 else if o = 3 then 2 else if o = 4 then 5 else if o = 5 then 4 else 0
  refs := fun _ _ => []

example : Closed cycles [0, 1, 2, 3, 4, 5, 6] := by
  refine ⟨?_, by simp [cycles]⟩
  intro a ha f
  simp only [List.mem_cons, List.not_mem_nil, or_false] at ha
  rcases ha with rfl | rfl | rfl | rfl | rfl | rfl | rfl <;> simp [cycles]

example : equals nodes cycles 8 (some 0) (some 2) = some true ∧ equals nodes cycles 8 (some 0) (some 4) = some false ∧
    equalsAll nodes cycles 8 [0, 1] [2, 3] = some true ∧ equalsAll nodes cycles 8 [0, 1] [2, 2] = some false := by decide

/-- any number of such cycles, 0 and 1, 2 and 3, ... -/
def rings : Heap := { cycles with attr := fun _ _ => some 7, ref := fun o _ => if o % 2 = 0 then o + 1 else o - 1 }

theorem rings_reach {o x : Nat} (h : Reach nodes rings o x) : x / 2 = o / 2 := by
  induction h with
  | refl => rfl
  | ref a f _ _ _ _ _ ih => simp only [rings]; split <;> omega
  | refs a f x _ _ _ _ _ hx _ => simp [rings, cycles] at hx

/-- three objects as in `C33_transitive_partial` -/
example : (∀ x, Reach nodes rings 0 x → ¬ Reach nodes rings 3 x) ∧ (∀ x, Reach nodes rings 3 x → ¬ Reach nodes rings 4 x) ∧
    (∀ x, Reach nodes rings 0 x → ¬ Reach nodes rings 4 x) ∧ equals nodes rings 8 (some 0) (some 3) = some true ∧
    equals nodes rings 8 (some 3) (some 4) = some true := by
  refine ⟨fun x h1 h2 => ?_, fun x h1 h2 => ?_, fun x h1 h2 => ?_, by decide, by decide⟩ <;>
    have e1 := rings_reach h1 <;> have e2 := rings_reach h2 <;> omega

/-- C33, violated: `Equals` is not transitive. Two nodes point to each other, a third one points to the first. -/
theorem C33_transitive_violated : ∃ (M : Meta) (H : Heap) (os : List Nat) (a b c : Nat), Closed H os ∧ a ∈ os ∧ b ∈ os ∧ c ∈ os ∧
    equals M H 8 (some a) (some b) = some true ∧ equals M H 8 (some b) (some c) = some true ∧ equals M H 8 (some a) (some c) = some false := by
  refine ⟨nodes, cycles, [0, 1, 6], 0, 1, 6, ⟨?_, by simp [cycles]⟩, by decide, by decide, by decide, by decide, by decide, by decide⟩
  intro a ha f
  simp only [List.mem_cons, List.not_mem_nil, or_false] at ha
  rcases ha with rfl | rfl | rfl <;> simp [cycles]

/-- C33, violated: a difference in an inherited attribute is not seen. -/
theorem C33_inherited_violated : ∃ (M : Meta) (H : Heap) (a b f : Nat), f ∈ M.inherited (H.cls a) ∧ H.cls a = H.cls b ∧ M.kind f = .attr ∧ M.derived f = false ∧
    H.isSet a f = true ∧ H.isSet b f = true ∧ H.attr a f ≠ H.attr b f ∧ equals M H 8 (some a) (some b) = some true :=
  ⟨{ features := fun _ => [], inherited := fun _ => [10], derived := fun _ => false, kind := fun _ => .attr },
   { cycles with attr := fun o _ => some o }, 0, 1, 10, by decide⟩

end Verif.DeepEqual
