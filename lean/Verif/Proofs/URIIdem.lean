import Verif.Proofs.URINormal

/-! # Normal forms are normal -/

namespace Verif.URI
open Verif.Spec.Path

/-- ".." segments first, then ordinary ones. -/
def Clean {α : Type} (seg : α → List Char) (l : List α) : Prop :=
  ∃ a b, l = a ++ b ∧ (∀ x ∈ a, seg x = dotdot) ∧ ∀ x ∈ b, seg x ≠ dot ∧ seg x ≠ dotdot

theorem resolve_ups {α : Type} (seg : α → List Char) (a b st : List α) (ha : ∀ x ∈ a, seg x = dotdot)
    (hst : ∀ x ∈ st, seg x = dotdot) : resolveOnto seg st (a ++ b) = resolveOnto seg (a.reverse ++ st) b := by
  induction a generalizing st with
  | nil => rfl
  | cons x a ih =>
    rw [List.cons_append, resolve_up seg st x _ (ha x (by simp)) (fun y hy => hst y (List.mem_of_mem_head? hy)),
      ih (x :: st) (fun y hy => ha y (by simp [hy]))
        (by intro y hy; rcases List.mem_cons.1 hy with rfl | hy; exact ha _ (by simp); exact hst y hy)]
    simp

theorem resolve_clean {α : Type} (seg : α → List Char) (l : List α) (h : Clean seg l) : resolveOnto seg [] l = l := by
  obtain ⟨a, b, rfl, ha, hb⟩ := h
  rw [resolve_ups seg a b [] ha (by simp), resolveOnto_plain seg _ _ hb]
  simp

theorem clean_resolve {α : Type} (seg : α → List Char) (st l : List α) (h : Clean seg st.reverse) :
    Clean seg (resolveOnto seg st l) := by
  induction l generalizing st with
  | nil => simpa [resolveOnto] using h
  | cons x l ih =>
    by_cases h1 : seg x = dot
    · rw [resolve_dot _ _ _ _ h1]; exact ih st h
    · obtain ⟨a, b, hab, ha, hb⟩ := h
      by_cases h2 : seg x = dotdot
      · cases st with
        | nil =>
          rw [resolve_up _ _ _ _ h2 (by simp)]
          exact ih [x] ⟨[x], [], by simp, by simpa using h2, by simp⟩
        | cons y ys =>
          by_cases h3 : seg y = dotdot
          · rw [resolve_up _ _ _ _ h2 (by simpa using h3)]
            refine ih _ ⟨a ++ [x], [], ?_, ?_, by simp⟩
            · have hb0 : b = [] := by
                rcases List.eq_nil_or_concat b with hb0 | ⟨b', z, rfl⟩
                · exact hb0
                · exfalso
                  rw [List.concat_eq_append, List.reverse_cons, ← List.append_assoc] at hab
                  have := List.append_inj_right' hab (by simp)
                  simp only [List.cons.injEq, and_true] at this
                  subst this
                  exact (hb y (by simp)).2 h3
              rw [hb0] at hab
              rw [List.reverse_cons, hab]; simp
            · intro z hz
              rcases List.mem_append.1 hz with hz | hz
              · exact ha z hz
              · rw [List.mem_singleton.1 hz]; exact h2
          · rw [resolve_pop _ _ _ _ _ h2 h3]
            refine ih ys ?_
            rcases List.eq_nil_or_concat b with hb0 | ⟨b', z, rfl⟩
            · exfalso
              subst hb0
              simp only [List.append_nil] at hab
              exact h3 (ha y (by rw [← hab]; simp))
            · rw [List.concat_eq_append, List.reverse_cons, ← List.append_assoc] at hab
              have := List.append_inj_left' hab (by simp)
              exact ⟨a, b', this, ha, fun z hz => hb z (by simp [hz])⟩
      · rw [resolve_push _ _ _ _ h1 h2]
        refine ih _ ⟨a, b ++ [x], ?_, ha, ?_⟩
        · rw [List.reverse_cons, hab]; simp
        · intro z hz
          rcases List.mem_append.1 hz with hz | hz
          · exact hb z hz
          · rw [List.mem_singleton.1 hz]; exact ⟨h1, h2⟩

theorem Clean.nil {α : Type} (seg : α → List Char) : Clean seg [] := ⟨[], [], rfl, by simp, by simp⟩

theorem Clean.map {α β : Type} {seg : α → List Char} {f : β → α} {l : List β} (h : Clean (fun x => seg (f x)) l) :
    Clean seg (l.map f) := by
  obtain ⟨a, b, rfl, ha, hb⟩ := h
  refine ⟨a.map f, b.map f, by simp, ?_, ?_⟩
  · intro x hx; obtain ⟨y, hy, rfl⟩ := List.mem_map.1 hx; exact ha y hy
  · intro x hx; obtain ⟨y, hy, rfl⟩ := List.mem_map.1 hx; exact hb y hy

theorem Clean.of_map {α β : Type} {seg : α → List Char} {f : β → α} {l : List β} (h : Clean seg (l.map f)) :
    Clean (fun x => seg (f x)) l := by
  obtain ⟨a, b, hab, ha, hb⟩ := h
  obtain ⟨a', b', rfl, h1, h2⟩ := List.map_eq_append_iff.1 hab
  subst h1; subst h2
  exact ⟨a', b', rfl, fun x hx => ha _ (List.mem_map_of_mem hx), fun x hx => hb _ (List.mem_map_of_mem hx)⟩

/-- The kept segments of a list of segments. -/
def keptOf (ts : List Tok) : List (Tok × Nat) := resolveOnto (fun (x : Tok × Nat) => x.1.1) [] ts.zipIdx

theorem kept_wf (ts : List Tok) (h : WF ts) : WF ((keptOf ts).map fun x => single x.1) := by
  have hsub : ((keptOf ts).map (·.1)).Sublist ts := by
    have := (resolveOnto_sublist (fun (x : Tok × Nat) => x.1.1) [] ts.zipIdx).map Prod.fst
    rw [List.reverse_nil, List.nil_append, List.zipIdx_map_fst] at this
    exact this
  have h' := h.sublist hsub
  have hm : (keptOf ts).map (fun x => single x.1) = ((keptOf ts).map (·.1)).map single := by rw [List.map_map]; rfl
  rw [hm]
  refine ⟨?_, ?_⟩
  · intro t ht
    obtain ⟨u, hu, rfl⟩ := List.mem_map.1 ht
    exact h'.1 u hu
  · rw [List.pairwise_map]
    refine h'.2.imp ?_
    intro a b hab
    simp only [single]; omega

theorem kept_clean (ts : List Tok) : Clean (fun t : Tok => t.1) ((keptOf ts).map fun x => single x.1) := by
  have := clean_resolve (fun (x : Tok × Nat) => x.1.1) [] ts.zipIdx (by simpa using Clean.nil _)
  exact Clean.map (f := fun x : Tok × Nat => single x.1) (seg := fun t : Tok => t.1) this

/-- Does the normal form need a leading "./". -/
def needsGuard (k : Nat) (ts : List Tok) : Bool :=
  match keptOf ts with
  | (t, i) :: _ => decide (k = 0 ∧ i ≠ 0 ∧ ':' ∈ t.1)
  | [] => false

theorem guard_eq (k : Nat) (ks : List (Tok × Nat)) :
    (match ks with
      | (t, i) :: _ => if k = 0 ∧ i ≠ 0 ∧ ':' ∈ t.1 then ['.', '/'] else []
      | [] => []) =
    if (match ks with
      | (t, i) :: _ => decide (k = 0 ∧ i ≠ 0 ∧ ':' ∈ t.1)
      | [] => false) then ['.', '/'] else [] := by
  cases ks <;> simp

theorem normal_eq (k : Nat) (ts : List Tok) (path : List Char) (hp : parse path = (k, ts)) :
    normal path = (if needsGuard k ts then ['.', '/'] else []) ++ render (min k 1) ((keptOf ts).map fun x => single x.1) := by
  simp only [normal, hp]
  congr 1
  exact guard_eq k (keptOf ts)

/-- The segments of the normal form. -/
theorem parse_normal (path : List Char) (h : nul ∉ path) :
    parse (normal path) = (min (parse path).1 1,
      (if needsGuard (parse path).1 (parse path).2 then [(dot, 1)] else []) ++ (keptOf (parse path).2).map fun x => single x.1) := by
  obtain ⟨hwf, _⟩ := parse_spec path h
  generalize hp : parse path = p at hwf
  obtain ⟨k, ts⟩ := p
  have hw := kept_wf ts hwf
  simp only at hwf ⊢
  have hn := normal_eq k ts path hp
  rw [hn]
  by_cases hg : needsGuard k ts = true
  · rw [if_pos hg, if_pos hg]
    have hk : k = 0 := by
      unfold needsGuard at hg
      split at hg
      · exact (of_decide_eq_true hg).1
      · simp at hg
    subst hk
    have : ['.', '/'] ++ render (min 0 1) ((keptOf ts).map fun x => single x.1) =
        render 0 ((dot, 1) :: (keptOf ts).map fun x => single x.1) := by
      simp [render, dot]
    rw [this, parse_render]
    · rfl
    · refine ⟨?_, ?_⟩
      · intro t ht
        rcases List.mem_cons.1 ht with rfl | ht
        · refine ⟨by decide, by decide, by decide⟩
        · exact hw.1 t ht
      · exact List.pairwise_cons.2 ⟨fun _ _ => by simp, hw.2⟩
  · rw [if_neg hg, if_neg hg, List.nil_append, List.nil_append, parse_render _ _ hw]

theorem nul_notMem_render (k : Nat) (ts : List Tok) (h : WF ts) : nul ∉ render k ts := by
  intro hm
  simp only [render, List.mem_append, List.mem_replicate, List.mem_flatMap] at hm
  rcases hm with ⟨_, hm⟩ | ⟨t, ht, hm | ⟨_, hm⟩⟩
  · exact nul_ne_slash hm
  · exact (h.1 t ht).2.2 hm
  · exact nul_ne_slash hm

theorem nul_notMem_normal (path : List Char) (h : nul ∉ path) : nul ∉ normal path := by
  obtain ⟨hwf, _⟩ := parse_spec path h
  rw [normal_eq _ _ path rfl]
  intro hm
  rcases List.mem_append.1 hm with hm | hm
  · split at hm
    · revert hm; decide
    · simp at hm
  · exact nul_notMem_render _ _ (kept_wf _ hwf) hm

theorem single_single (t : Tok) : single (single t) = single t := by simp [single]

theorem map_single_zip (ks : List Tok) (n : Nat) (hs : ∀ t ∈ ks, single t = t) : (ks.zipIdx n).map (fun x => single x.1) = ks := by
  have : (ks.zipIdx n).map (fun x => single x.1) = ((ks.zipIdx n).map Prod.fst).map single := by rw [List.map_map]; rfl
  rw [this, List.zipIdx_map_fst]
  conv => rhs; rw [← List.map_id ks]
  exact List.map_congr_left hs

theorem normal_idem (path : List Char) (h : nul ∉ path) : normal (normal path) = normal path := by
  have hp := parse_normal path h
  rw [normal_eq _ _ (normal path) hp, normal_eq _ _ path rfl]
  generalize (parse path).1 = k
  generalize (parse path).2 = ts
  have hc := kept_clean ts
  have hs : ∀ t ∈ (keptOf ts).map (fun x => single x.1), single t = t := by
    intro t ht; obtain ⟨x, _, rfl⟩ := List.mem_map.1 ht; exact single_single _
  generalize hks : (keptOf ts).map (fun x => single x.1) = ks at hc hs
  have hz : ∀ n, Clean (fun x : Tok × Nat => x.1.1) (ks.zipIdx n) := by
    intro n
    refine Clean.of_map (seg := fun t : Tok => t.1) (f := Prod.fst) ?_
    rw [List.zipIdx_map_fst]; exact hc
  by_cases hg : needsGuard k ts = true
  · have hk : k = 0 := by
      unfold needsGuard at hg
      split at hg
      · exact (of_decide_eq_true hg).1
      · simp at hg
    subst hk
    rw [if_pos hg, if_pos hg]
    have hkk : keptOf ([(dot, 1)] ++ ks) = ks.zipIdx 1 := by
      unfold keptOf
      rw [List.singleton_append, List.zipIdx_cons, resolve_dot (fun x : Tok × Nat => x.1.1) _ _ _ rfl, resolve_clean _ _ (hz _)]
    have hg' : needsGuard (min 0 1) ([(dot, 1)] ++ ks) = true := by
      unfold needsGuard
      rw [hkk]
      unfold needsGuard at hg
      split at hg
      · rename_i t i xs he
        rw [he] at hks
        rw [← hks]
        simp only [List.map_cons, List.zipIdx_cons, single]
        have := of_decide_eq_true hg
        simp [this.2.2]
      · simp at hg
    rw [hg', hkk, map_single_zip _ _ hs]
    simp
  · rw [if_neg hg, if_neg hg]
    have hkk : keptOf ([] ++ ks) = ks.zipIdx := by
      unfold keptOf
      rw [List.nil_append, resolve_clean _ _ (hz _)]
    have hg' : needsGuard (min k 1) ([] ++ ks) = false := by
      unfold needsGuard
      rw [hkk]
      cases ks with
      | nil => rfl
      | cons t ks => simp [List.zipIdx_cons]
    rw [hg', hkk, map_single_zip _ _ hs]
    simp [Nat.min_assoc]

end Verif.URI
