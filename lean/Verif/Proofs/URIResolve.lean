import Verif.Proofs.URIIdem

/-! # Lemmas for Relativize and Resolve -/

namespace Verif.URI
open Verif.Spec.Path

theorem isAbs_parse (path : List Char) : isAbs path = decide (0 < (parse path).1) := by
  cases path with
  | nil => rfl
  | cons c cs =>
    simp only [isAbs, List.head?_cons, parse]
    by_cases h : c = '/'
    · simp [h]
    · simp only [h, if_false]
      by_cases hk : 0 < (parse cs).1
      · simp [hk, h]
      · simp only [hk, if_false]
        cases (parse cs).2 <;> simp [h]

theorem resolve_segments (path : List Char) : resolve (segments path) = (keptOf (parse path).2).map fun x => x.1.1 := by
  have := resolveOnto_map (fun x : Tok × Nat => x.1.1) id [] (parse path).2.zipIdx
  have hm : (parse path).2.zipIdx.map (fun x : Tok × Nat => x.1.1) = segments path := by
    have : (parse path).2.zipIdx.map (fun x : Tok × Nat => x.1.1) = ((parse path).2.zipIdx.map Prod.fst).map Prod.fst := by
      rw [List.map_map]; rfl
    rw [this, List.zipIdx_map_fst]; rfl
  rw [hm] at this
  exact this

theorem double_slash (a b : List Char) :
    2 ≤ (parse (a ++ '/' :: '/' :: b)).1 ∨ ∃ t ∈ (parse (a ++ '/' :: '/' :: b)).2, 2 ≤ t.2 := by
  induction a with
  | nil => left; simp only [List.nil_append, parse]; simp
  | cons c a ih =>
    simp only [List.cons_append, parse]
    generalize parse (a ++ '/' :: '/' :: b) = p at ih
    obtain ⟨k, ts⟩ := p
    simp only at ih ⊢
    by_cases hc : c = '/'
    · simp only [hc, if_true]
      rcases ih with ih | ih
      · left; omega
      · right; exact ih
    · simp only [hc, if_false]
      by_cases hk : 0 < k
      · simp only [hk, if_true]
        right
        rcases ih with ih | ⟨t, ht, ih⟩
        · exact ⟨([c], k), by simp, ih⟩
        · exact ⟨t, by simp [ht], ih⟩
      · simp only [hk, if_false]
        rcases ih with ih | ⟨t, ht, ih⟩
        · omega
        · right
          cases ts with
          | nil => simp at ht
          | cons u us =>
            obtain ⟨s, j⟩ := u
            rcases List.mem_cons.1 ht with rfl | ht
            · exact ⟨(c :: s, j), by simp, ih⟩
            · exact ⟨t, by simp [ht], ih⟩

theorem normal_no_double (path : List Char) (h : nul ∉ path) (a b : List Char) : normal path ≠ a ++ '/' :: '/' :: b := by
  intro he
  have hp := parse_normal path h
  have hd := double_slash a b
  rw [← he, hp] at hd
  simp only at hd
  rcases hd with hd | ⟨t, ht, hd⟩
  · omega
  · rcases List.mem_append.1 ht with ht | ht
    · split at ht
      · simp only [List.mem_singleton] at ht; subst ht; simp at hd
      · simp at ht
    · obtain ⟨x, _, rfl⟩ := List.mem_map.1 ht
      simp only [single] at hd; omega

theorem resolveOnto_append {α : Type} (seg : α → List Char) (st a b : List α) :
    resolveOnto seg st (a ++ b) = resolveOnto seg (resolveOnto seg st a).reverse b := by
  induction a generalizing st with
  | nil => simp [resolveOnto]
  | cons x a ih =>
    rw [List.cons_append]
    by_cases h1 : seg x = dot
    · rw [resolve_dot _ _ _ _ h1, resolve_dot _ _ _ _ h1, ih]
    · by_cases h2 : seg x = dotdot
      · cases st with
        | nil => rw [resolve_up _ _ _ _ h2 (by simp), resolve_up _ _ _ _ h2 (by simp), ih]
        | cons y ys =>
          by_cases h3 : seg y = dotdot
          · rw [resolve_up _ _ _ _ h2 (by simpa using h3), resolve_up _ _ _ _ h2 (by simpa using h3), ih]
          · rw [resolve_pop _ _ _ _ _ h2 h3, resolve_pop _ _ _ _ _ h2 h3, ih]
      · rw [resolve_push _ _ _ _ h1 h2, resolve_push _ _ _ _ h1 h2, ih]

/-- The text of segments. -/
def flat (ts : List Tok) : List Char := ts.flatMap fun t => t.1 ++ List.replicate t.2 '/'

/-- The kept segments with their slashes collapsed. -/
def red (ts : List Tok) : List Tok := (resolveOnto (fun t : Tok => t.1) [] ts).map single

theorem red_eq (ts : List Tok) : (keptOf ts).map (fun x => single x.1) = red ts := by
  have h := resolveOnto_map (Prod.fst : Tok × Nat → Tok) (fun t => t.1) [] ts.zipIdx
  rw [List.zipIdx_map_fst] at h
  simp only [List.map_nil] at h
  unfold red keptOf
  rw [h, List.map_map]; rfl

theorem normal_abs (path : List Char) (k : Nat) (ts : List Tok) (hp : parse path = (k, ts)) (hk : 0 < k) :
    normal path = '/' :: flat (red ts) := by
  rw [normal_eq k ts path hp, red_eq]
  have hg : needsGuard k ts = false := by
    unfold needsGuard
    split
    · simp; omega
    · rfl
  rw [hg, Nat.min_eq_right hk]
  simp [render, flat]

theorem red_wf {ts : List Tok} (h : WF ts) : WF (red ts) := by
  rw [← red_eq]; exact kept_wf ts h

theorem red_clean (ts : List Tok) : Clean (fun t : Tok => t.1) (red ts) := by
  rw [← red_eq]; exact kept_clean ts

theorem parse_flat (k : Nat) (ts : List Tok) (h : WF ts) : parse (List.replicate k '/' ++ flat ts) = (k, ts) := parse_render k ts h

/-- Reading a directory followed by something relative. -/
theorem parse_dir (d x : List Char) (k : Nat) (ts : List Tok) (hd : parse d = (k, ts)) (hnd : nul ∉ d) (hnx : nul ∉ x)
    (hs : ∀ t ∈ ts, 1 ≤ t.2) (hx : (parse x).1 = 0) : parse (d ++ x) = (k, ts ++ (parse x).2) := by
  obtain ⟨w1, e1⟩ := parse_spec d hnd
  obtain ⟨w2, e2⟩ := parse_spec x hnx
  rw [hd] at w1 e1
  simp only at w1 e1
  rw [hx] at e2
  have : d ++ x = render k (ts ++ (parse x).2) := by
    rw [← e1]
    conv => lhs; rw [← e2]
    simp [render]
  rw [this, parse_render]
  refine ⟨?_, ?_⟩
  · intro t ht
    rcases List.mem_append.1 ht with ht | ht
    · exact w1.1 t ht
    · exact w2.1 t ht
  · exact List.pairwise_append.2 ⟨w1.2, w2.2, fun a ha b _ => hs a ha⟩

theorem flat_append (a b : List Tok) : flat (a ++ b) = flat a ++ flat b := by simp [flat]

/-- A text ending with a slash: every segment is followed by a slash. -/
theorem parse_trailing (d : List Char) (h : d.getLast? = some '/') : ∀ t ∈ (parse d).2, 1 ≤ t.2 := by
  induction d with
  | nil => simp at h
  | cons c cs ih =>
    simp only [parse]
    by_cases hcs : cs = []
    · subst hcs
      have hc : c = '/' := by simpa using h
      simp [hc, parse]
    · have h' : cs.getLast? = some '/' := by
        rw [List.getLast?_cons] at h
        cases hq : cs.getLast? with
        | none => exact absurd (List.getLast?_eq_none_iff.1 hq) hcs
        | some z => rw [hq] at h; simpa using h
      have ih := ih h'
      have hne : (parse cs).1 = 0 → (parse cs).2 ≠ [] := by
        intro h0 he
        -- an empty reading is an empty text
        have : ∀ l : List Char, (parse l).1 = 0 → (parse l).2 = [] → l = [] := by
          intro l
          cases l with
          | nil => simp
          | cons a l =>
            simp only [parse]
            generalize parse l = p
            obtain ⟨k, ts⟩ := p
            by_cases ha : a = '/'
            · simp [ha]
            · simp only [ha, if_false]
              by_cases hk : 0 < k
              · simp [hk]
              · simp only [hk, if_false]
                cases ts <;> simp
        exact hcs (this cs h0 he)
      generalize parse cs = p at ih hne
      obtain ⟨k, ts⟩ := p
      simp only at ih hne ⊢
      by_cases hc : c = '/'
      · simp only [hc, if_true]; exact ih
      · simp only [hc, if_false]
        by_cases hk : 0 < k
        · simp only [hk, if_true]
          intro t ht
          rcases List.mem_cons.1 ht with rfl | ht
          · exact hk
          · exact ih t ht
        · simp only [hk, if_false]
          cases ts with
          | nil => exact absurd rfl (hne (by omega))
          | cons u us =>
            obtain ⟨s, j⟩ := u
            intro t ht
            rcases List.mem_cons.1 ht with rfl | ht
            · exact ih (s, j) (by simp)
            · exact ih t (by simp [ht])

/-- Directory and file part of a path. -/
theorem dirOf_spec (b : List Char) : ∃ l, b = dirOf b ++ l ∧ '/' ∉ l ∧ (dirOf b = [] ∨ (dirOf b).getLast? = some '/') := by
  refine ⟨(b.reverse.takeWhile (· ≠ '/')).reverse, ?_, ?_, ?_⟩
  · have := List.takeWhile_append_dropWhile (p := (· ≠ '/')) (l := b.reverse)
    have := congrArg List.reverse this
    simp only [List.reverse_append, List.reverse_reverse] at this
    exact this.symm
  · intro hm
    have hm' : '/' ∈ b.reverse.takeWhile (· ≠ '/') := by simpa using hm
    have : ∀ l : List Char, '/' ∉ l.takeWhile (· ≠ '/') := by
      intro l
      induction l with
      | nil => simp
      | cons c l ih =>
        by_cases hc : c = '/'
        · simp [hc]
        · have h' : ¬ '/' = c := fun e => hc e.symm
          simp only [ne_eq, decide_not, List.takeWhile_cons, hc, decide_false, Bool.not_false, if_true, List.mem_cons, h', false_or]
          simpa using ih
    exact this _ hm'
  · simp only [dirOf, List.getLast?_reverse]
    cases hd : b.reverse.dropWhile (· ≠ '/') with
    | nil => left; rfl
    | cons c cs =>
      right
      have := List.head?_dropWhile_not (p := (· ≠ '/')) b.reverse
      rw [hd] at this
      simpa using this

theorem dirOf_append (d l : List Char) (hd : d.getLast? = some '/') (hl : '/' ∉ l) : dirOf (d ++ l) = d := by
  unfold dirOf
  rw [List.reverse_append, List.dropWhile_append_of_pos]
  · have : (d.reverse).head? = some '/' := by simpa using hd
    cases hr : d.reverse with
    | nil => rw [hr] at this; simp at this
    | cons c cs =>
      rw [hr] at this
      simp only [List.head?_cons, Option.some.injEq] at this
      subst this
      have := congrArg List.reverse hr
      simp only [List.reverse_reverse] at this
      simp [this]
  · intro c hc
    have : c ∈ l := by simpa using hc
    simp only [decide_eq_true_eq]
    rintro rfl; exact hl this

theorem getLast_flat (D : List Tok) (h : ∀ t ∈ D, 1 ≤ t.2) : ('/' :: flat D).getLast? = some '/' := by
  rcases List.eq_nil_or_concat D with rfl | ⟨D', t, rfl⟩
  · simp [flat]
  · have := h t (by simp)
    obtain ⟨m, hm⟩ : ∃ m, t.2 = m + 1 := ⟨t.2 - 1, by omega⟩
    have hf : flat [t] = t.1 ++ List.replicate (m + 1) '/' := by simp [flat, hm]
    rw [List.concat_eq_append, flat_append, hf, List.replicate_succ']
    simp only [← List.append_assoc, ← List.cons_append]
    rw [List.getLast?_append]; simp

/-- The base directory: `d` is the directory part of `b`. -/
theorem base_dir (b : List Char) (hb : isAbs b = true) (hn : nul ∉ b)
    (hlast : ∀ l, b = dirOf b ++ l → l ≠ dot ∧ l ≠ dotdot) :
    ∃ k ts, parse (dirOf b) = (k, ts) ∧ 0 < k ∧ (∀ t ∈ ts, 1 ≤ t.2) ∧ nul ∉ dirOf b ∧
      (if (normal b).getLast? = some '/' then normal b else dirOf (normal b)) = '/' :: flat (red ts) := by
  obtain ⟨l, hbl, hl, hd⟩ := dirOf_spec b
  have hl2 := hlast l hbl
  generalize dirOf b = d at hbl hd
  have hnd : nul ∉ d := fun h => hn (by rw [hbl]; simp [h])
  have hnl : nul ∉ l := fun h => hn (by rw [hbl]; simp [h])
  have hdl : d.getLast? = some '/' := by
    rcases hd with rfl | hd
    · exfalso
      rw [List.nil_append] at hbl
      subst hbl
      cases b with
      | nil => simp [isAbs] at hb
      | cons c cs =>
        have : c = '/' := by simpa [isAbs] using hb
        exact hl (by simp [this])
    · exact hd
  have htr := parse_trailing d hdl
  obtain ⟨wd, ed⟩ := parse_spec d hnd
  have hk : 0 < (parse d).1 := by
    have h1 : isAbs d = true := by
      cases d with
      | nil => simp at hdl
      | cons c cs => rw [hbl] at hb; simpa [isAbs] using hb
    rw [isAbs_parse] at h1
    simpa using h1
  refine ⟨(parse d).1, (parse d).2, rfl, hk, htr, hnd, ?_⟩
  have hDs : ∀ t ∈ red (parse d).2, 1 ≤ t.2 := by
    intro t ht
    obtain ⟨u, hu, rfl⟩ := List.mem_map.1 ht
    have := htr u ((by simpa using (resolveOnto_sublist (fun t : Tok => t.1) [] (parse d).2).subset hu))
    simp only [single]; omega
  by_cases hl0 : l = []
  · subst hl0
    rw [List.append_nil] at hbl
    subst hbl
    have := normal_abs b _ _ rfl hk
    rw [this, if_pos (getLast_flat _ hDs)]
  · have hpl : parse l = (0, [(l, 0)]) := by
      have := parse_seg l 0 [] [] hl0 hl rfl (fun _ => rfl)
      simpa using this
    have hpb : parse b = ((parse d).1, (parse d).2 ++ [(l, 0)]) := by
      rw [hbl, parse_dir d l _ _ rfl hnd hnl htr (by rw [hpl]), hpl]
    have hr : red ((parse d).2 ++ [(l, 0)]) = red (parse d).2 ++ [(l, 0)] := by
      unfold red
      rw [resolveOnto_append, resolve_push _ _ _ _ hl2.1 hl2.2]
      simp [resolveOnto, single]
    have hnb := normal_abs b _ _ hpb hk
    rw [hr, flat_append] at hnb
    have hfl : flat [(l, 0)] = l := by simp [flat]
    rw [hfl, ← List.cons_append] at hnb
    rw [hnb, if_neg, dirOf_append _ _ (getLast_flat _ hDs) hl]
    intro he
    rw [List.getLast?_append] at he
    cases hg : l.getLast? with
    | none => exact hl0 (List.getLast?_eq_none_iff.1 hg)
    | some c =>
      rw [hg] at he
      simp only [Option.some_or, Option.some.injEq] at he
      subst he
      exact hl (List.mem_of_getLast? hg)

/-- The core of C17: resolving the rest of a normal path under the directory it was cut at. -/
theorem resolve_rest (d rel path : List Char) (k : Nat) (ts : List Tok) (hd : parse d = (k, ts)) (hk : 0 < k)
    (hs : ∀ t ∈ ts, 1 ≤ t.2) (hnd : nul ∉ d) (hnp : nul ∉ path) (hpa : isAbs path = true) (hrel : rel ≠ [])
    (hcut : normal path = ('/' :: flat (red ts)) ++ rel) :
    rel.head? ≠ some '/' ∧ normal (d ++ rel) = normal path ∧ nul ∉ d ++ rel := by
  have hDs : ∀ t ∈ red ts, 1 ≤ t.2 := by
    intro t ht
    obtain ⟨u, hu, rfl⟩ := List.mem_map.1 ht
    have := hs u ((by simpa using (resolveOnto_sublist (fun t : Tok => t.1) [] ts).subset hu))
    simp only [single]; omega
  have hhead : rel.head? ≠ some '/' := by
    intro he
    cases rel with
    | nil => exact hrel rfl
    | cons c r =>
      simp only [List.head?_cons, Option.some.injEq] at he
      subst he
      have hl := getLast_flat _ hDs
      obtain ⟨pre, hpre⟩ : ∃ pre, '/' :: flat (red ts) = pre ++ ['/'] := by
        rcases List.eq_nil_or_concat ('/' :: flat (red ts)) with h | ⟨pre, z, h⟩
        · simp at h
        · rw [h] at hl
          simp only [List.concat_eq_append, List.getLast?_append, List.getLast?_singleton, Option.some_or, Option.some.injEq] at hl
          subst hl
          exact ⟨pre, by rw [h, List.concat_eq_append]⟩
      rw [hpre] at hcut
      exact normal_no_double path hnp pre r (by rw [hcut]; simp)
  have hnrel : nul ∉ rel := by
    intro hm
    exact nul_notMem_normal path hnp (by rw [hcut]; simp [hm])
  have hx : (parse rel).1 = 0 := by
    have := isAbs_parse rel
    have h0 : isAbs rel = false := by
      cases h : isAbs rel with
      | false => rfl
      | true => exact absurd (by simpa [isAbs] using h) hhead
    rw [h0] at this
    simpa using this.symm
  have hkp : 0 < (parse path).1 := by rw [isAbs_parse] at hpa; simpa using hpa
  obtain ⟨wp, _⟩ := parse_spec path hnp
  obtain ⟨wd, _⟩ := parse_spec d hnd
  rw [hd] at wd
  simp only at wd
  have hC := normal_abs path _ _ rfl hkp
  -- the two readings of the normal path
  have hpD : parse ('/' :: flat (red ts)) = (1, red ts) := parse_flat 1 _ (red_wf wd)
  have hnD : nul ∉ '/' :: flat (red ts) := fun hm => nul_notMem_render 1 _ (red_wf wd) hm
  have h1 : parse (normal path) = (1, red ts ++ (parse rel).2) := by
    rw [hcut]; exact parse_dir _ _ _ _ hpD hnD hnrel hDs hx
  have h2 : parse (normal path) = (1, red (parse path).2) := by
    rw [hC]; exact parse_flat 1 _ (red_wf wp)
  have hCD : red (parse path).2 = red ts ++ (parse rel).2 := by
    rw [h1] at h2; exact (Prod.mk.inj h2).2.symm
  have hdr := parse_dir d rel k ts hd hnd hnrel hs hx
  refine ⟨hhead, ?_, ?_⟩
  · rw [normal_abs _ _ _ hdr hk, hC]
    congr 2
    have hRs : (parse rel).2.map single = (parse rel).2 := by
      conv => rhs; rw [← List.map_id (parse rel).2]
      apply List.map_congr_left
      intro t ht
      have : t ∈ red (parse path).2 := by rw [hCD]; simp [ht]
      obtain ⟨u, _, rfl⟩ := List.mem_map.1 this
      exact single_single u
    have hcomm : ∀ st l : List Tok, (resolveOnto (fun t : Tok => t.1) st l).map single =
        resolveOnto (fun t : Tok => t.1) (st.map single) (l.map single) := by
      intro st l
      exact (resolveOnto_map single (fun t : Tok => t.1) st l).symm
    unfold red
    rw [resolveOnto_append, hcomm, hRs, List.map_reverse]
    change resolveOnto _ (red ts).reverse (parse rel).2 = red (parse path).2
    have hcl : resolveOnto (fun t : Tok => t.1) [] (red ts) = red ts := resolve_clean _ _ (red_clean ts)
    have h3 := resolveOnto_append (fun t : Tok => t.1) [] (red ts) (parse rel).2
    rw [hcl] at h3
    rw [← h3, ← hCD]
    exact resolve_clean _ _ (red_clean _)
  · intro hm
    rcases List.mem_append.1 hm with hm | hm
    · exact hnd hm
    · exact hnrel hm

end Verif.URI
