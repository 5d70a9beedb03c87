import Verif.Proofs.URI

/-! # normalize computes the normal form -/

namespace Verif.URI
open Verif.Spec.Path

/-- A segment with its index and its offset in the buffer. -/
structure Item where
  tok : Tok
  idx : Nat
  off : Nat

def items : Nat → Nat → List Tok → List Item
  | _, _, [] => []
  | i, o, t :: ts => ⟨t, i, o⟩ :: items (i + 1) (o + t.1.length + t.2) ts

theorem items_off (i o : Nat) (ts : List Tok) : (items i o ts).map (·.off) = offsets o ts := by
  induction ts generalizing i o with
  | nil => rfl
  | cons t ts ih => simp [items, offsets, ih]

theorem items_zip (i o : Nat) (ts : List Tok) : (items i o ts).map (fun x => (x.tok, x.idx)) = ts.zipIdx i := by
  induction ts generalizing i o with
  | nil => rfl
  | cons t ts ih => simp [items, List.zipIdx_cons, ih]

theorem items_tok (i o : Nat) (ts : List Tok) : ∀ x ∈ items i o ts, x.tok ∈ ts := by
  induction ts generalizing i o with
  | nil => simp [items]
  | cons t ts ih =>
    intro x hx
    simp only [items, List.mem_cons] at hx
    rcases hx with rfl | hx
    · simp
    · simp [ih _ _ x hx]

theorem items_le (i o : Nat) (ts : List Tok) : ∀ x ∈ items i o ts, o ≤ x.off ∧ i ≤ x.idx := by
  induction ts generalizing i o with
  | nil => simp [items]
  | cons t ts ih =>
    intro x hx
    simp only [items, List.mem_cons] at hx
    rcases hx with rfl | hx
    · simp
    · have := ih _ _ x hx; omega

theorem items_at (i : Nat) (pre : List Char) (ts : List Tok) (h : WF ts) : ∀ x ∈ items i pre.length ts,
    ∃ rest, (pre ++ cut ts).drop x.off = x.tok.1 ++ (List.replicate x.tok.2 nul ++ rest) ∧ (x.tok.2 = 0 → rest = []) ∧
      x.off ≤ (pre ++ cut ts).length := by
  induction ts generalizing i pre with
  | nil => simp [items]
  | cons t ts ih =>
    intro x hx
    simp only [items, List.mem_cons] at hx
    rcases hx with rfl | hx
    · refine ⟨cut ts, ?_, ?_, by simp⟩
      · simp [cut]
      · intro h0
        cases ts with
        | nil => rfl
        | cons u us => have := (List.pairwise_cons.1 h.2).1 u (by simp); simp only at h0; omega
    · have := ih (i + 1) (pre ++ (t.1 ++ List.replicate t.2 nul)) h.tail x
      simp only [List.length_append, List.length_replicate] at this
      rw [← Nat.add_assoc] at this
      have := this hx
      simpa [cut, Nat.add_assoc] using this

theorem items_ord (i o : Nat) (ts : List Tok) (h : WF ts) :
    (items i o ts).Pairwise fun x y => x.off + x.tok.1.length + 1 ≤ y.off ∧ 1 ≤ x.tok.2 ∧ x.idx < y.idx := by
  induction ts generalizing i o with
  | nil => simp [items]
  | cons t ts ih =>
    simp only [items, List.pairwise_cons]
    refine ⟨?_, ih _ _ h.tail⟩
    intro y hy
    have h1 := items_le _ _ _ y hy
    have h2 := (List.pairwise_cons.1 h.2).1 y.tok (items_tok _ _ _ y hy)
    omega

/-- The piece of an item. -/
def Item.piece (x : Item) : Piece := ⟨x.off, x.tok.1, decide (1 ≤ x.tok.2)⟩

theorem items_piece (i : Nat) (pre : List Char) (ts : List Tok) (h : WF ts) : ∀ x ∈ items i pre.length ts,
    x.piece.At (pre ++ cut ts) := by
  intro x hx
  obtain ⟨rest, h1, h2, h3⟩ := items_at i pre ts h x hx
  refine ⟨(h.1 _ (items_tok _ _ _ x hx)).2.2, h3, List.replicate x.tok.2 nul ++ rest, h1, ?_⟩
  simp only [Item.piece, decide_eq_true_eq]
  split
  · rename_i hk
    obtain ⟨m, hm⟩ : ∃ m, x.tok.2 = m + 1 := ⟨x.tok.2 - 1, by omega⟩
    simp [hm, List.replicate_succ]
  · have : x.tok.2 = 0 := by omega
    simp [this, h2 this]

theorem At.segAt {x : Item} {buf : List Char} (h : x.piece.At buf) : SegAt buf x.off x.tok.1 := by
  obtain ⟨_, _, tail, h1, h2⟩ := h
  refine ⟨tail, h1, ?_⟩
  split at h2
  · exact Or.inr h2
  · exact Or.inl h2

theorem resolveOnto_sublist {α : Type} (seg : α → List Char) (st l : List α) :
    (resolveOnto seg st l).Sublist (st.reverse ++ l) := by
  induction l generalizing st with
  | nil => simp [resolveOnto]
  | cons x l ih =>
    by_cases h1 : seg x = dot
    · rw [resolve_dot _ _ _ _ h1]; exact (ih st).trans (by simp)
    · by_cases h2 : seg x = dotdot
      · cases st with
        | nil => rw [resolve_up _ _ _ _ h2 (by simp)]; simpa using ih [x]
        | cons y ys =>
          by_cases h3 : seg y = dotdot
          · rw [resolve_up _ _ _ _ h2 (by simpa using h3)]; simpa using ih (x :: y :: ys)
          · rw [resolve_pop _ _ _ _ _ h2 h3]; exact (ih ys).trans (by simp)
      · rw [resolve_push _ _ _ _ h1 h2]; simpa using ih (x :: st)

theorem resolveOnto_map {α β : Type} (f : α → β) (seg : β → List Char) (st l : List α) :
    resolveOnto seg (st.map f) (l.map f) = (resolveOnto (fun a => seg (f a)) st l).map f := by
  induction l generalizing st with
  | nil => simp [resolveOnto]
  | cons x l ih =>
    rw [List.map_cons]
    by_cases h1 : seg (f x) = dot
    · rw [resolve_dot _ _ _ _ h1, resolve_dot (fun a => seg (f a)) _ _ _ h1]; exact ih st
    · by_cases h2 : seg (f x) = dotdot
      · cases st with
        | nil =>
          rw [resolve_up _ _ _ _ h2 (by simp), resolve_up (fun a => seg (f a)) _ _ _ h2 (by simp)]
          exact ih [x]
        | cons y ys =>
          by_cases h3 : seg (f y) = dotdot
          · rw [resolve_up _ _ _ _ h2 (by simpa using h3), resolve_up (fun a => seg (f a)) _ _ _ h2 (by simpa using h3)]
            exact ih (x :: y :: ys)
          · rw [List.map_cons, resolve_pop _ _ _ _ _ h2 h3, resolve_pop (fun a => seg (f a)) _ _ _ _ h2 h3]
            exact ih ys
      · rw [resolve_push _ _ _ _ h1 h2, resolve_push (fun a => seg (f a)) _ _ _ h1 h2]; exact ih (x :: st)

theorem resolveOnto_plain {α : Type} (seg : α → List Char) (st l : List α)
    (h : ∀ x ∈ l, seg x ≠ dot ∧ seg x ≠ dotdot) : resolveOnto seg st l = st.reverse ++ l := by
  induction l generalizing st with
  | nil => simp [resolveOnto]
  | cons x l ih =>
    rw [resolve_push _ _ _ _ (h x (by simp)).1 (h x (by simp)).2, ih _ (fun y hy => h y (by simp [hy]))]
    simp

theorem firstUsed_spec (f : Nat) (segs : List (Option Nat)) :
    match segs.filterMap id with
    | [] => firstUsed f segs = none
    | o :: _ => ∃ j, firstUsed f segs = some (f + j, o) ∧ segs[j]? = some (some o) ∧ (0 < j → segs[0]? = some none) := by
  induction segs generalizing f with
  | nil => simp [firstUsed]
  | cons s segs ih =>
    cases s with
    | some o => simp only [List.filterMap_cons, id_eq, firstUsed]; exact ⟨0, by simp⟩
    | none =>
      have := ih (f + 1)
      simp only [List.filterMap_cons, id_eq, firstUsed]
      split <;> rename_i he <;> rw [he] at this
      · exact this
      · obtain ⟨j, h1, h2, _⟩ := this
        exact ⟨j + 1, by rw [h1]; congr 2; omega, by simpa using h2, by simp⟩

theorem colonAt_spec (s : List Char) (n : Nat) (pre tail : List Char) (hs : nul ∉ s) (hn : s.length < n)
    (ht : tail = [] ∨ tail.head? = some nul) : colonAt n (pre ++ (s ++ tail)) pre.length = some (decide (':' ∈ s)) := by
  induction s generalizing pre n with
  | nil =>
    obtain ⟨n, rfl⟩ : ∃ m, n = m + 1 := ⟨n - 1, by omega⟩
    rcases ht with rfl | ht
    · simp [colonAt]
    · cases tail with
      | nil => simp at ht
      | cons c tl =>
        simp only [List.head?_cons, Option.some.injEq] at ht
        subst ht
        simp only [colonAt, List.nil_append, getElem?_pre0, List.head?_cons, nul_ne_colon, if_false, if_true]
        simp
  | cons c s ih =>
    obtain ⟨n, rfl⟩ : ∃ m, n = m + 1 := ⟨n - 1, by omega⟩
    have hc : c ≠ nul := fun e => hs (by simp [e])
    have := ih n (pre ++ [c]) (fun hm => hs (by simp [hm])) (by simpa using hn)
    simp only [List.append_assoc, List.singleton_append, List.length_append, List.length_singleton] at this
    simp only [colonAt, List.cons_append, getElem?_pre0, List.head?_cons, hc, if_false, this]
    by_cases h : c = ':'
    · simp [h]
    · have h' : ¬ ':' = c := fun e => h e.symm
      simp [h, h']

theorem flatMap_congr' {α β : Type} (l : List α) (f g : α → List β) (h : ∀ x ∈ l, f x = g x) : l.flatMap f = l.flatMap g := by
  induction l with
  | nil => rfl
  | cons x l ih => simp only [List.flatMap_cons, h x (by simp), ih (fun y hy => h y (by simp [hy]))]

/-- The normal form on the level of segments. -/
def normalToks (k : Nat) (ts : List Tok) : List Char :=
  let kept := resolveOnto (fun (x : Tok × Nat) => x.1.1) [] ts.zipIdx
  let guard : List Char :=
    match kept with
    | (t, i) :: _ => if k = 0 ∧ i ≠ 0 ∧ ':' ∈ t.1 then ['.', '/'] else []
    | [] => []
  guard ++ render (min k 1) (kept.map fun x => single x.1)

theorem kept_eq (k : Nat) (ts : List Tok) :
    resolveOnto (fun (x : Tok × Nat) => x.1.1) [] ts.zipIdx =
      (resolveOnto (fun x : Item => x.tok.1) [] (items 0 k ts)).map fun x => (x.tok, x.idx) := by
  rw [← items_zip 0 k ts]
  exact resolveOnto_map (fun x : Item => (x.tok, x.idx)) (fun x => x.1.1) [] (items 0 k ts)

theorem text_single (x : Item) : x.piece.text = (single x.tok).1 ++ List.replicate (single x.tok).2 '/' := by
  simp only [Piece.text, Item.piece, single, decide_eq_true_eq]
  by_cases h : 1 ≤ x.tok.2
  · rw [if_pos h, Nat.min_eq_right h]; rfl
  · have : x.tok.2 = 0 := by omega
    simp [this]

theorem Piece.At.set {x : Piece} {buf : List Char} (h : x.At buf) (i : Nat) (c : Char) (hi : i < x.off) : x.At (buf.set i c) := by
  obtain ⟨h1, h2, h3⟩ := h
  refine ⟨h1, by simpa using h2, ?_⟩
  rw [List.drop_set_of_lt hi]; exact h3

theorem normalize_render (k : Nat) (ts : List Tok) (h : WF ts) : normalize (render k ts) = some (normalToks k ts) := by
  unfold normalize
  rw [needs_spec k ts h]
  by_cases hpl : (decide (k ≤ 1) && plain ts) = true
  · rw [if_pos hpl]
    simp only [Bool.and_eq_true, decide_eq_true_eq, plain, List.all_eq_true] at hpl
    obtain ⟨hk, hpl⟩ := hpl
    simp only [Option.some.injEq, normalToks]
    have hres : resolveOnto (fun (x : Tok × Nat) => x.1.1) [] ts.zipIdx = ts.zipIdx := by
      rw [resolveOnto_plain]
      · simp
      · intro x hx
        have : x.1 ∈ ts := by
          have := List.mem_zipIdx hx
          obtain ⟨_, _, h⟩ := this
          rw [h]; simp
        have := hpl _ this
        exact ⟨this.1.1, this.1.2⟩
    have hsingle : ts.zipIdx.map (fun x => single x.1) = ts := by
      have : ts.zipIdx.map (fun x => single x.1) = (ts.zipIdx.map Prod.fst).map single := by rw [List.map_map]; rfl
      rw [this, List.zipIdx_map_fst]
      conv => rhs; rw [← List.map_id ts]
      apply List.map_congr_left
      intro t ht
      have := (hpl _ ht).2
      simp [single, Nat.min_eq_left this]
    rw [hres, hsingle, Nat.min_eq_left hk]
    cases ts with
    | nil => rfl
    | cons t ts => simp [List.zipIdx_cons]
  · rw [if_neg hpl]
    simp only [split_spec k ts h]
    -- the buffer
    have hat : ∀ x ∈ items 0 k ts, x.piece.At (List.replicate k nul ++ cut ts) := by
      have := items_piece 0 (List.replicate k nul) ts h
      simpa using this
    have hord := items_ord 0 k ts h
    generalize hbuf : List.replicate k nul ++ cut ts = buf at hat
    have hrd := removeDots_spec (fun x : Item => x.off) (fun x => x.tok.1) buf (items 0 k ts)
      ((items 0 k ts).length + 1) [] []
      (by
        intro x hx
        rcases hx with hx | hx
        · simp at hx
        · exact ⟨At.segAt (hat x hx), h.1 _ (items_tok _ _ _ x hx)⟩)
      (by
        simp only [List.reverse_nil, List.nil_append]
        rw [List.pairwise_iff_forall_sublist]
        intro x y hxy
        have h1 := List.pairwise_iff_forall_sublist.1 hord hxy
        have hy := (hat y (hxy.subset (by simp))).2.1
        simp only [Item.piece] at hy
        omega)
      (by simp) (by simp) (by omega)
    obtain ⟨segs, hs1, hs2, hs3⟩ := hrd
    have hmap : (items 0 k ts).map (fun x => some x.off) = (offsets k ts).map some := by
      rw [← items_off 0 k ts]; simp
    simp only [List.nil_append, List.length_nil] at hs1 hs3
    rw [hmap] at hs1 hs3
    have hlen : (items 0 k ts).length = ((offsets k ts).map some).length := by rw [← items_off 0 k ts]; simp
    rw [hlen] at hs1
    have hs1' : removeDots buf ((offsets k ts).map some) = some segs := hs1
    simp only [hs1']
    -- the kept segments
    generalize hkept : resolveOnto (fun x : Item => x.tok.1) [] (items 0 k ts) = kept at hs2
    have hsub : kept.Sublist (items 0 k ts) := by
      have := resolveOnto_sublist (fun x : Item => x.tok.1) [] (items 0 k ts)
      rw [hkept] at this; simpa using this
    have hkat : ∀ x ∈ kept.map Item.piece, x.At buf := by
      intro x hx
      obtain ⟨y, hy, rfl⟩ := List.mem_map.1 hx
      exact hat y (hsub.subset hy)
    have hkord : (kept.map Item.piece).Pairwise fun x y => x.off + x.seg.length + 1 ≤ y.off := by
      rw [List.pairwise_map]
      exact (hord.sublist hsub).imp (fun hh => hh.1)
    have htext : (kept.map Item.piece).flatMap Piece.text = render 0 (kept.map fun x => single x.tok) := by
      simp only [render, List.replicate_zero, List.nil_append, List.flatMap_map]
      exact flatMap_congr' _ _ _ (fun x _ => text_single x)
    have hnt : normalToks k ts = (match kept with
        | x :: _ => if k = 0 ∧ x.idx ≠ 0 ∧ ':' ∈ x.tok.1 then ['.', '/'] else []
        | [] => []) ++ render (min k 1) (kept.map fun x => single x.tok) := by
      simp only [normalToks, kept_eq k ts, hkept]
      cases kept <;> simp [Function.comp_def]
    by_cases hk0 : k = 0
    · subst hk0
      -- there is a segment
      obtain ⟨t, ts', rfl⟩ : ∃ t ts', ts = t :: ts' := by
        cases ts with
        | nil => exact absurd (by decide) hpl
        | cons t ts' => exact ⟨t, ts', rfl⟩
      obtain ⟨g1, g2, g3⟩ := h.1 t (by simp)
      obtain ⟨c, s, hts⟩ : ∃ c s, t.1 = c :: s := by
        cases ht : t.1 with
        | nil => exact absurd ht g1
        | cons c s => exact ⟨c, s, rfl⟩
      have hc : c ≠ nul := by rintro rfl; exact g3 (by simp [hts])
      have hb0 : buf[0]? = some c := by
        rw [← hbuf]; simp [cut, hts]
      have hidx : ∀ x ∈ items 0 0 (t :: ts'), (x.idx = 0 ↔ x.off = 0) ∧ (x.idx ≠ 0 → 2 ≤ x.off) := by
        intro x hx
        simp only [items, List.mem_cons] at hx
        rcases hx with rfl | hx
        · simp
        · have := items_le _ _ _ x hx
          have h2 := (List.pairwise_cons.1 h.2).1 x.tok (items_tok _ _ _ x hx)
          have h3 : 0 < t.1.length := by rw [hts]; simp
          omega
      simp only [hnt, Nat.zero_min]
      have hfu := firstUsed_spec 0 segs
      rw [hs2] at hfu
      have hjoin : ∀ (b : List Char), b[0]? ≠ some nul → b[0]? ≠ none → ∀ sg, join b sg = joinLoop b sg 0 := by
        intro b hb hb' sg
        unfold join
        split
        · rename_i he; exact absurd he hb'
        · rename_i d he
          rw [if_neg]
          rintro rfl; exact hb he
      cases hkk : kept with
      | nil =>
        subst hkk
        simp only [List.map_nil] at hfu
        simp only [maybeAddLeadingDot, hb0, if_neg hc, hfu]
        rw [hjoin buf (by rw [hb0]; simpa using hc) (by simp [hb0])]
        obtain ⟨b', p', e1, e2⟩ := joinLoop_spec segs [] buf 0 (by simpa using hs2) (by simp) (by simp) (by omega) (by simp)
        simp only [e1, e2]
        simp [render]
      | cons x xs =>
        rw [hkk] at hfu
        simp only [List.map_cons] at hfu
        obtain ⟨j, f1, f2, f3⟩ := hfu
        have hx : x ∈ items 0 0 (t :: ts') := hsub.subset (by rw [hkk]; simp)
        have hjx : j = 0 ↔ x.idx = 0 := by
          rw [(hidx x hx).1]
          have h1 := hs3 j _ f2
          rw [← hmap, List.getElem?_map] at h1
          constructor
          · rintro rfl; simpa [items] using h1.symm
          · intro h0
            cases j with
            | zero => rfl
            | succ j =>
              simp only [items, List.getElem?_cons_succ, Option.map_eq_some_iff, Option.some.injEq] at h1
              obtain ⟨y, hy1, hy2⟩ := h1
              have := items_le _ _ _ y (List.mem_of_getElem? hy1)
              have h3 : 0 < t.1.length := by rw [hts]; simp
              omega
        have hplain : ∀ (hg : ¬ (x.idx ≠ 0 ∧ ':' ∈ x.tok.1)), (match join buf segs with
            | none => none
            | some (buf, n) => some (buf.take n)) =
            some ((if True ∧ x.idx ≠ 0 ∧ ':' ∈ x.tok.1 then ['.', '/'] else []) ++
              render 0 (List.map (fun x => single x.tok) (x :: xs))) := by
          intro hg
          rw [hjoin buf (by rw [hb0]; simpa using hc) (by simp [hb0])]
          obtain ⟨b', p', e1, e2⟩ := joinLoop_spec segs (kept.map Item.piece) buf 0 (by rw [hs2]; simp [Item.piece]) hkat
            (by simp) (by omega) hkord
          simp only [e1, e2, htext]
          rw [hkk, if_neg (fun hh => hg hh.2)]
          simp
        by_cases hj : j = 0
        · have hi := hjx.1 hj
          subst hj
          simp only [maybeAddLeadingDot, hb0, if_neg hc, f1, Nat.add_zero]
          exact hplain (fun hh => hh.1 hi)
        · have hi : x.idx ≠ 0 := fun e => hj (hjx.2 e)
          obtain ⟨j', rfl⟩ : ∃ j', j = j' + 1 := ⟨j - 1, by omega⟩
          have hxs := At.segAt (hat x hx)
          obtain ⟨tail, ht1, ht2⟩ := hxs
          have hxo : x.off ≤ buf.length := (hat x hx).2.1
          have hbt : buf = buf.take x.off ++ (x.tok.1 ++ tail) := by rw [← ht1, List.take_append_drop]
          have hcol := colonAt_spec x.tok.1 (buf.length + 1) (buf.take x.off) tail (h.1 _ (items_tok _ _ _ x hx)).2.2
            (by
              have := congrArg List.length hbt
              simp only [List.length_append] at this
              omega) ht2
          rw [← hbt] at hcol
          simp only [List.length_take, Nat.min_eq_left hxo] at hcol
          simp only [maybeAddLeadingDot, hb0, if_neg hc, f1, Nat.zero_add, hcol]
          by_cases hcc : ':' ∈ x.tok.1
          · simp only [hcc, decide_true]
            have hx2 := (hidx x hx).2 hi
            have hl1 : 1 < buf.length ∧ 0 < segs.length := by
              refine ⟨?_, ?_⟩
              · have := congrArg List.length hbt
                have h3 : 0 < x.tok.1.length := by
                  cases hq : x.tok.1 with
                  | nil => rw [hq] at hcc; simp at hcc
                  | cons => simp
                simp only [List.length_append, List.length_take, Nat.min_eq_left hxo] at this
                omega
              · have := f3 (by omega)
                cases segs with
                | nil => simp at this
                | cons => simp
            simp only [if_pos hl1]
            have hb' : ∃ d tl, buf = c :: d :: tl := by
              match buf, hb0, hl1.1 with
              | [a], _, hh => simp at hh
              | a :: b :: tl, hh, _ => simp only [List.getElem?_cons_zero, Option.some.injEq] at hh; exact ⟨b, tl, by rw [hh]⟩
            obtain ⟨d, tl, hbd⟩ := hb'
            have hset : (buf.set 0 '.').set 1 nul = '.' :: nul :: tl := by rw [hbd]; rfl
            rw [hjoin _ (by rw [hset]; simp [nul_ne_dot.symm]) (by rw [hset]; simp)]
            have hsegs0 : (segs.set 0 (some 0)).filterMap id = 0 :: segs.filterMap id := by
              have := f3 (by omega)
              cases segs with
              | nil => simp at this
              | cons s segs =>
                simp only [List.getElem?_cons_zero, Option.some.injEq] at this
                subst this
                simp
            have hoff2 : ∀ y ∈ kept, 2 ≤ y.off := by
              intro y hy
              have hyi : y ∈ items 0 0 (t :: ts') := hsub.subset hy
              rw [hkk] at hy
              rcases List.mem_cons.1 hy with rfl | hy
              · exact hx2
              · have h2 := List.pairwise_cons.1 (hkk ▸ hord.sublist hsub)
                have := h2.1 y hy
                omega
            obtain ⟨b', p', e1, e2⟩ := joinLoop_spec (segs.set 0 (some 0)) (⟨0, ['.'], true⟩ :: kept.map Item.piece)
              ((buf.set 0 '.').set 1 nul) 0
              (by rw [hsegs0, hs2]; simp [Item.piece])
              (by
                intro y hy
                rcases List.mem_cons.1 hy with rfl | hy
                · refine ⟨by decide, by simp, nul :: tl, ?_, by simp⟩
                  rw [hset]; rfl
                · obtain ⟨z, hz, rfl⟩ := List.mem_map.1 hy
                  have := hoff2 z hz
                  exact ((hkat _ hy).set 0 '.' (by simp [Item.piece]; omega)).set 1 nul (by simp [Item.piece]; omega))
              (by simp) (by omega)
              (by
                refine List.pairwise_cons.2 ⟨?_, hkord⟩
                intro y hy
                obtain ⟨z, hz, rfl⟩ := List.mem_map.1 hy
                have := hoff2 z hz
                simp [Item.piece]; omega)
            simp only [e1, e2]
            rw [if_pos ⟨trivial, hi, trivial⟩]
            simp only [List.flatMap_cons, htext]
            rw [hkk]
            simp [Piece.text]
          · simp only [hcc, decide_false]
            have := hplain (fun hh => hcc hh.2)
            rw [if_neg (by simp [hcc])] at this
            rw [if_neg (by simp)]
            exact this
    · -- absolute
      obtain ⟨k', rfl⟩ : ∃ k', k = k' + 1 := ⟨k - 1, by omega⟩
      have hb0 : buf[0]? = some nul := by rw [← hbuf]; simp [List.replicate_succ]
      simp only [maybeAddLeadingDot, hb0, if_true, join]
      have hoff1 : ∀ y ∈ kept, 1 ≤ y.off := by
        intro y hy
        have := items_le _ _ _ y (hsub.subset hy)
        omega
      obtain ⟨b', p', e1, e2⟩ := joinLoop_spec segs (kept.map Item.piece) (buf.set 0 '/') 1
        (by rw [hs2]; simp [Item.piece])
        (by
          intro y hy
          obtain ⟨z, hz, rfl⟩ := List.mem_map.1 hy
          have := hoff1 z hz
          exact (hkat _ hy).set 0 '/' (by simp [Item.piece]; omega))
        (by
          intro y hy
          obtain ⟨z, hz, rfl⟩ := List.mem_map.1 hy
          exact hoff1 z hz)
        (by rw [← hbuf]; simp; omega) hkord
      simp only [e1, e2, htext, hnt]
      have : (buf.set 0 '/').take 1 = ['/'] := by rw [← hbuf]; simp [List.replicate_succ]
      rw [this, show min (k' + 1) 1 = 1 by omega]
      cases kept <;> simp [render]

theorem normalize_eq (path : List Char) (h : nul ∉ path) : normalize path = some (normal path) := by
  obtain ⟨h1, h2⟩ := parse_spec path h
  have := normalize_render (parse path).1 (parse path).2 h1
  rw [h2] at this
  exact this

end Verif.URI
