import Verif.Proofs.NetURL
import Verif.Proofs.URIIdem

namespace Verif.NetURL
open Verif.URI Verif.Spec.NetURL Verif.Spec.Path

theorem mem_render (k : Nat) (ts : List Tok) (x : Char) (h : x ∈ render k ts) : x = '/' ∨ ∃ t ∈ ts, x ∈ t.1 := by
  simp only [render, List.mem_append, List.mem_replicate, List.mem_flatMap] at h
  rcases h with ⟨_, h⟩ | ⟨t, ht, h | ⟨_, h⟩⟩
  · exact Or.inl h
  · exact Or.inr ⟨t, ht, h⟩
  · exact Or.inl h

theorem kept_mem (ts : List Tok) : ∀ x ∈ keptOf ts, x ∈ ts.zipIdx := by
  intro x hx
  have := (resolveOnto_sublist (fun (x : Tok × Nat) => x.1.1) [] ts.zipIdx).subset hx
  simpa using this

/-- The characters of the normal form are those of the path, `.` and `/`. -/
theorem mem_normal (path : List Char) (h : nul ∉ path) (x : Char) (hx : x ∈ normal path) : x = '.' ∨ x = '/' ∨ x ∈ path := by
  obtain ⟨hwf, hr⟩ := parse_spec path h
  rw [normal_eq _ _ path rfl] at hx
  rcases List.mem_append.1 hx with hx | hx
  · split at hx
    · simp at hx; rcases hx with hx | hx
      · exact Or.inl hx
      · exact Or.inr (Or.inl hx)
    · cases hx
  · rcases mem_render _ _ _ hx with hx | ⟨t, ht, hx⟩
    · exact Or.inr (Or.inl hx)
    · right; right
      obtain ⟨y, hy, rfl⟩ := List.mem_map.1 ht
      have hm : y.1 ∈ (parse path).2 := by
        have := List.mem_map_of_mem (f := Prod.fst) (kept_mem _ y hy)
        rwa [List.zipIdx_map_fst] at this
      rw [← hr, render, List.mem_append, List.mem_flatMap]
      right
      exact ⟨y.1, hm, by simp only [single] at hx; simp [hx]⟩

theorem render_head (k : Nat) (ts : List Tok) (h : WF ts) : ((render k ts).head? = some '/') ↔ 0 < k := by
  cases k with
  | zero =>
    simp only [render, List.replicate_zero, List.nil_append, Nat.lt_irrefl, iff_false]
    cases ts with
    | nil => simp
    | cons t ts =>
      obtain ⟨g1, g2, _⟩ := h.1 t (by simp)
      cases ht : t.1 with
      | nil => exact absurd ht g1
      | cons y s =>
        rw [List.flatMap_cons, ht]
        simp only [List.cons_append, List.head?_cons, Option.some.injEq]
        intro he
        apply g2; rw [ht, he]; simp
  | succ k => simp [render, List.replicate_succ]

theorem normal_head (path : List Char) (h : nul ∉ path) (hp : path.head? = some '/') : (normal path).head? = some '/' := by
  obtain ⟨hwf, hr⟩ := parse_spec path h
  have hk : 0 < (parse path).1 := by rw [← render_head _ _ hwf, hr]; exact hp
  rw [normal_eq _ _ path rfl]
  have hg : needsGuard (parse path).1 (parse path).2 = false := by
    unfold needsGuard
    split
    · simp; omega
    · rfl
  rw [hg]
  simp only [Bool.false_eq_true, if_false, List.nil_append]
  rw [render_head _ _ (kept_wf _ hwf)]
  omega

theorem normal_two (path : List Char) (h : nul ∉ path) : (normal path).take 2 ≠ ['/', '/'] := by
  obtain ⟨hwf, hr⟩ := parse_spec path h
  rw [normal_eq _ _ path rfl]
  intro he
  split at he
  · simp at he
  · rw [List.nil_append] at he
    have hw := kept_wf _ hwf
    generalize (keptOf (parse path).2).map (fun x => single x.1) = ks at he hw
    by_cases hk : (parse path).1 = 0
    · have h1 := render_head 0 ks hw
      rw [hk] at he
      simp only [Nat.zero_min] at he
      have : (render 0 ks).head? = some '/' := by
        cases hq : render 0 ks with
        | nil => rw [hq] at he; cases he
        | cons y s => rw [hq] at he; simp at he; simp [he.1]
      exact absurd (h1.1 this) (by omega)
    · have hm : min (parse path).1 1 = 1 := by omega
      rw [hm] at he
      have e : render 1 ks = '/' :: render 0 ks := by simp [render]
      rw [e] at he
      simp only [List.take_succ_cons, List.cons.injEq, true_and] at he
      have : (render 0 ks).head? = some '/' := by
        cases hq : render 0 ks with
        | nil => rw [hq] at he; cases he
        | cons y s => rw [hq] at he; simp at he; simp [he]
      exact absurd ((render_head 0 ks hw).1 this) (by omega)

/-- The first segment of a relative path written from segments. -/
theorem takeWhile_render (t : Tok) (ts : List Tok) (h : WF (t :: ts)) : (render 0 (t :: ts)).takeWhile (· ≠ '/') = t.1 := by
  have hg := h.1 t (by simp)
  have hp := List.pairwise_cons.1 h.2
  rw [render, List.replicate_zero, List.nil_append, List.flatMap_cons, List.append_assoc]
  refine (takeWhile_cut t.1 _ (fun x hx he => hg.2.1 (he ▸ hx)) ?_).1
  cases hj : t.2 with
  | zero =>
    left
    cases ts with
    | nil => simp
    | cons u us => have := hp.1 u (by simp); omega
  | succ j => right; simp [List.replicate_succ]

theorem normal_noColon (path : List Char) (h : nul ∉ path) (hc : ':' ∉ path.takeWhile (· ≠ '/')) :
    ':' ∉ (normal path).takeWhile (· ≠ '/') := by
  obtain ⟨hwf, hr⟩ := parse_spec path h
  rw [normal_eq _ _ path rfl]
  by_cases hg : needsGuard (parse path).1 (parse path).2 = true
  · rw [if_pos hg]; simp
  · rw [if_neg hg, List.nil_append]
    by_cases hk : (parse path).1 = 0
    · have hw := kept_wf _ hwf
      rw [hk] at hg ⊢
      simp only [Nat.zero_min]
      cases hks : keptOf (parse path).2 with
      | nil => simp [render]
      | cons y ys =>
        obtain ⟨t, i⟩ := y
        rw [hks, List.map_cons] at hw
        rw [List.map_cons, takeWhile_render _ _ hw]
        simp only [single]
        intro hm
        have hi : i = 0 := by
          apply Decidable.byContradiction
          intro hi
          apply hg
          unfold needsGuard
          rw [hks]
          simp [hi, hm]
        have hz := kept_mem (parse path).2 (t, i) (by rw [hks]; simp)
        rw [List.mem_zipIdx_iff_getElem?, hi] at hz
        simp only at hz
        cases hts : (parse path).2 with
        | nil => rw [hts] at hz; cases hz
        | cons u us =>
          rw [hts] at hz hwf
          simp at hz
          subst hz
          apply hc
          rw [← hr, hk, hts, takeWhile_render _ _ hwf]
          exact hm
    · have hm : min (parse path).1 1 = 1 := by omega
      rw [hm]; simp [render]

/-- A tuple which is clean but for its path stays clean with a normal form as path. -/
theorem clean_normal (c d : Comps) (p : List Char) (h : Clean c) (hd : d = { c with path := normal p, query := d.query, fragment := d.fragment })
    (hp : ∀ x ∈ p, x ∉ ['?', '#', '%'] ∧ 0x20 ≤ x.toNat ∧ x.toNat ≠ 0x7f)
    (hq : ∀ x ∈ d.query, x ≠ '#' ∧ 0x20 ≤ x.toNat ∧ x.toNat ≠ 0x7f) (hf : '%' ∉ d.fragment)
    (ha : ¬ noAuthority c → p.head? = some '/')
    (hn : c.scheme = [] → noAuthority c → ':' ∉ p.takeWhile (· ≠ '/')) : Clean d := by
  have hnul : nul ∉ p := fun hx => by have := (hp _ hx).2.1; revert this; decide
  have hpath : d.path = normal p := by rw [hd]
  have hauth : noAuthority d ↔ noAuthority c := by rw [hd]; exact Iff.rfl
  have hhost : hostPort d = hostPort c := by rw [hd]; rfl
  refine ⟨by rw [hd]; exact h.scheme, by rw [hd]; exact h.username, by rw [hd]; exact h.password, by rw [hhost]; exact h.host,
    by rw [hhost]; exact h.hostText, by rw [hd]; exact h.noColon, ?_, hq, hf, ?_, ?_, ?_⟩
  · rw [hpath]
    intro x hx
    rcases mem_normal p hnul x hx with hx | hx | hx
    · subst hx; decide
    · subst hx; decide
    · exact hp x hx
  · intro hc
    rw [hauth] at hc
    rw [hpath]
    exact Or.inr (normal_head p hnul (ha hc))
  · intro _ h2
    rw [hpath] at h2
    exact absurd h2 (normal_two p hnul)
  · intro h1 h2
    rw [hpath]
    refine normal_noColon p hnul (hn ?_ (hauth.1 h2))
    rw [hd] at h1; exact h1

end Verif.NetURL
