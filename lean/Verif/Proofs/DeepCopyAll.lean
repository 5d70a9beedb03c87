import Verif.Proofs.DeepCopyEqual

/-!
# Proofs about copies of several objects
-/

namespace Verif.DeepCopy

variable {M : Meta} {w0 w w' : World}

theorem copyAll_roots (hv : Valid M w0) (wf : WellFormed M) {copy : World → Nat → Option (World × Nat)} (zs : List Nat) :
    (∀ z ∈ zs, z < w0.nextObj ∧ CopyOK M w0 copy z) → (∀ z ∈ zs, ∀ z' ∈ zs, Within M w0 z z' → z = z') → zs.Nodup → ∀ w : World, Frame w0 w →
    ∃ w' cs, copyAll copy w zs = some (w', cs) ∧ Post M w0 w w' (fun x => ∃ z ∈ zs, Within M w0 z x) (· ∈ zs) (fun _ _ => True) (fun _ => False) ∧
      List.Forall₂ (fun z c => w'.objects z = some c) zs cs := by
  induction zs with
  | nil =>
    intro _ _ _ w _
    exact ⟨w, [], rfl, .empty _ (by simp) _ _ _ _, .nil⟩
  | cons z zs ih =>
    intro hz ha hn w hw
    obtain ⟨w1, h1, hz1, p1⟩ := (hz z (by simp)).2 w hw
    rw [List.nodup_cons] at hn
    obtain ⟨w2, cs, h2, p2, hf⟩ := ih (fun z' h' => hz z' (by simp [h'])) (fun a h a' h' => ha a (by simp [h]) a' (by simp [h'])) hn.2 w1 (hw.trans p1.frame)
    have hdisj : ∀ x : Nat, Within M w0 z x → ¬ ∃ z' ∈ zs, Within M w0 z' x := by
      rintro x hx ⟨z', hz', hx'⟩
      have : z = z' := by
        rcases hx.linear hv wf (hz z (by simp)).1 (hz z' (by simp [hz'])).1 hx' with h | h
        · exact ha z (by simp) z' (by simp [hz']) h
        · exact (ha z' (by simp [hz']) z (by simp) h).symm
      exact hn.1 (this ▸ hz')
    have hold : ∀ x : Nat, (Within M w0 z x ∨ ∃ z' ∈ zs, Within M w0 z' x) → x < w0.nextObj := by
      rintro x (hx | ⟨z', hz', hx⟩)
      · exact hx.old hv wf (hz z (by simp)).1
      · exact hx.old hv wf (hz z' (by simp [hz'])).1
    have hzo : w2.objects z = some w.nextObj := by
      rw [p2.out z (hdisj z .root)]
      exact hz1
    refine ⟨w2, w.nextObj :: cs, by simp [copyAll, h1, h2], ?_, .cons hzo hf⟩
    have := Post.comp hv hold p1 p2 hdisj
    have e : (fun x => ∃ z' ∈ z :: zs, Within M w0 z' x) = (fun x => Within M w0 z x ∨ ∃ z' ∈ zs, Within M w0 z' x) := by
      funext x
      simp
    rw [e]
    refine this.congr (fun _ _ _ => .rfl) (fun _ _ => .rfl) ?_
    intro x hx
    simp only [List.mem_cons]
    constructor
    · rintro (⟨-, h⟩ | ⟨-, h⟩)
      · exact .inl h
      · exact .inr h
    · rintro (rfl | h)
      · exact .inl ⟨.root, rfl⟩
      · exact .inr ⟨⟨x, h, .root⟩, h⟩

/-- the tree of a root -/
theorem Forest.tree {roots order : List Nat} {depth : Nat → Nat} (h : Forest M w roots order depth) {r : Nat} (hr : r ∈ roots) :
    ∃ o, Tree M w r o depth := by
  classical
  refine ⟨order.filter fun x => decide (Within M w r x), h.exists_ r hr, ?_, h.nodup.filter _, ?_, ?_⟩
  · intro x
    simp only [List.mem_filter, decide_eq_true_eq, h.mem]
    exact ⟨fun e => e.2, fun e => ⟨⟨r, hr, e⟩, e⟩⟩
  · exact fun x f y hx => h.depth x f y ⟨r, hr, hx⟩
  · exact fun x f hx => h.changeable x f ⟨r, hr, hx⟩

theorem forest_objects {roots order : List Nat} {depth : Nat → Nat} (h : Forest M w roots order depth) : Forest M { w with objects := fun _ => none } roots order depth where
  exists_ := h.exists_
  once := h.once
  apart := fun r hr r' hr' e => h.apart r hr r' hr' ((within_objects M w r r').1 e)
  mem := fun x => by simp only [within_objects]; exact h.mem x
  nodup := h.nodup
  depth := fun x f y hx => by simp only [within_objects] at hx; exact h.depth x f y hx
  changeable := fun x f hx => by simp only [within_objects] at hx; exact h.changeable x f hx

theorem copyAllTop_final (hv : Valid M w) (wf : WellFormed M) {roots order : List Nat} {depth : Nat → Nat} (ht : Forest M w roots order depth) {n : Nat}
    (hn : ∀ r ∈ roots, depth r < n) :
    ∃ w1 w' cs, copyAllTop M order n w roots = some (w', cs) ∧
      Final M { w with objects := fun _ => none } w1 w' (fun x => ∃ r ∈ roots, Within M { w with objects := fun _ => none } r x) (· ∈ roots) order ∧
      List.Forall₂ (fun z c => w1.objects z = some c) roots cs := by
  have hv0 := valid_objects hv
  have ht0 := forest_objects ht
  have hnone : ∀ x : Nat, ({ w with objects := fun _ => none } : World).objects x = none := fun _ => rfl
  simp only [copyAllTop]
  generalize ({ w with objects := fun _ => none } : World) = w0 at *
  clear hv ht
  obtain ⟨w1, cs, h1, h2, h3⟩ := copyAll_roots hv0 wf (copy := copy M n) roots (by
    intro z hz
    obtain ⟨o, t⟩ := ht0.tree hz
    exact ⟨ht0.exists_ z hz, copy_post hv0 wf t n z .root (hn z hz)⟩) ht0.apart ht0.once w0 (Frame.refl _)
  obtain ⟨w', h4, h5⟩ := copyReferences_final hv0 wf hnone (fun x ⟨r, hr, hx⟩ => hx.old hv0 wf (ht0.exists_ r hr)) (fun x hx => (ht0.mem x).1 hx) ht0.nodup h2
  refine ⟨w1, w', cs, ?_, h5, h3⟩
  rw [h1]
  simp [h4]

theorem forall₂_mem_right {R : Nat → Nat → Prop} {l l' : List Nat} (h : List.Forall₂ R l l') {c : Nat} (hc : c ∈ l') : ∃ z ∈ l, R z c := by
  induction h with
  | nil => simp at hc
  | cons h _ ih =>
    rcases List.mem_cons.1 hc with rfl | hc
    · exact ⟨_, by simp, h⟩
    · obtain ⟨z, hz, h⟩ := ih hc
      exact ⟨z, by simp [hz], h⟩

end Verif.DeepCopy
