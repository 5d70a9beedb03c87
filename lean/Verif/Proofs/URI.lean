import Verif.Model.URI
import Verif.Spec.URI

/-! # Proofs about path normalisation -/

namespace Verif.URI
open Verif.Spec.Path

/-! ## Reading and writing paths -/

/-- A segment: non empty, without slash and rune 0. -/
def Good (s : List Char) : Prop := s ≠ [] ∧ '/' ∉ s ∧ nul ∉ s

/-- Segments are separated. -/
def WF (ts : List Tok) : Prop := (∀ t ∈ ts, Good t.1) ∧ ts.Pairwise fun a _ => 1 ≤ a.2

theorem nul_ne_slash : nul ≠ '/' := by decide
theorem nul_ne_dot : nul ≠ '.' := by decide
theorem nul_ne_colon : nul ≠ ':' := by decide

theorem parse_spec (path : List Char) (h : nul ∉ path) :
    WF (parse path).2 ∧ render (parse path).1 (parse path).2 = path := by
  induction path with
  | nil => simp [parse, WF, render]
  | cons c cs ih =>
    have hc : c ≠ nul := fun e => h (by simp [e])
    obtain ⟨ih1, ih2⟩ := ih (fun hm => h (by simp [hm]))
    simp only [parse]
    generalize hp : parse cs = p at ih1 ih2
    obtain ⟨k, ts⟩ := p
    simp only at ih1 ih2 ⊢
    by_cases h1 : c = '/'
    · subst h1
      simp only [if_true]
      refine ⟨ih1, ?_⟩
      simp only [render, List.replicate_succ, List.cons_append] at ih2 ⊢
      rw [ih2]
    · simp only [if_neg h1]
      by_cases h2 : 0 < k
      · simp only [if_pos h2]
        refine ⟨⟨?_, ?_⟩, ?_⟩
        · intro t ht
          rcases List.mem_cons.1 ht with rfl | ht
          · refine ⟨by simp, ?_, ?_⟩ <;> simp [eq_comm, h1, hc]
          · exact ih1.1 t ht
        · exact List.pairwise_cons.2 ⟨fun _ _ => h2, ih1.2⟩
        · simp only [render, List.replicate_zero, List.nil_append, List.flatMap_cons, List.append_assoc,
            List.singleton_append] at ih2 ⊢
          rw [List.cons_append, ih2]
      · have hk : k = 0 := by omega
        subst hk
        simp only [Nat.lt_irrefl, if_false]
        cases ts with
        | nil =>
          have : cs = [] := by simpa [render] using ih2.symm
          subst this
          refine ⟨⟨?_, by simp⟩, by simp [render]⟩
          intro t ht
          simp only [List.mem_singleton] at ht
          subst ht
          refine ⟨by simp, ?_, ?_⟩ <;> simp [eq_comm, h1, hc]
        | cons t ts =>
          obtain ⟨s, j⟩ := t
          refine ⟨⟨?_, ?_⟩, ?_⟩
          · intro t ht
            rcases List.mem_cons.1 ht with rfl | ht
            · obtain ⟨g1, g2, g3⟩ := ih1.1 (s, j) (by simp)
              refine ⟨by simp, ?_, ?_⟩
              · simp only [List.mem_cons, not_or]; exact ⟨fun e => h1 e.symm, g2⟩
              · simp only [List.mem_cons, not_or]; exact ⟨fun e => hc e.symm, g3⟩
            · exact ih1.1 t (by simp [ht])
          · exact List.pairwise_cons.2 (List.pairwise_cons.1 ih1.2)
          · simp only [render, List.replicate_zero, List.nil_append, List.flatMap_cons, List.append_assoc,
              List.cons_append] at ih2 ⊢
            rw [ih2]

theorem parse_slashes (k : Nat) (cs : List Char) : parse (List.replicate k '/' ++ cs) = ((parse cs).1 + k, (parse cs).2) := by
  induction k with
  | zero => simp
  | succ k ih => simp only [List.replicate_succ, List.cons_append, parse, ih, if_true]; rfl

theorem parse_seg (s : List Char) (k : Nat) (ts : List Tok) (cs : List Char) (hs : s ≠ []) (hg : '/' ∉ s)
    (h : parse cs = (k, ts)) (hk : k = 0 → ts = []) : parse (s ++ cs) = (0, (s, k) :: ts) := by
  induction s with
  | nil => exact absurd rfl hs
  | cons c s ih =>
    have hc : c ≠ '/' := fun e => hg (by simp [e])
    by_cases hs' : s = []
    · subst hs'
      simp only [List.cons_append, List.nil_append, parse, h, if_neg hc]
      by_cases h0 : 0 < k
      · simp [h0]
      · have : k = 0 := by omega
        simp [this, hk this]
    · have := ih hs' (fun hm => hg (by simp [hm]))
      simp only [List.cons_append, parse, this, if_neg hc]
      rfl

theorem parse_toks (ts : List Tok) (h : WF ts) :
    parse (ts.flatMap fun t => t.1 ++ List.replicate t.2 '/') = (0, ts) := by
  induction ts with
  | nil => rfl
  | cons t ts ih =>
    have hp := List.pairwise_cons.1 h.2
    have := ih ⟨fun t ht => h.1 t (by simp [ht]), hp.2⟩
    simp only [List.flatMap_cons, List.append_assoc]
    have hg := h.1 t (by simp)
    have h2 : parse (List.replicate t.2 '/' ++ ts.flatMap fun t => t.1 ++ List.replicate t.2 '/') = (t.2, ts) := by
      rw [parse_slashes, this]; simp
    refine parse_seg t.1 t.2 ts _ hg.1 hg.2.1 h2 ?_
    intro h0
    cases ts with
    | nil => rfl
    | cons u us => have := hp.1 u (by simp); omega

theorem parse_render (k : Nat) (ts : List Tok) (h : WF ts) : parse (render k ts) = (k, ts) := by
  rw [render, parse_slashes, parse_toks ts h]; simp

theorem WF.sublist {ts us : List Tok} (h : WF ts) (hs : us.Sublist ts) : WF us :=
  ⟨fun t ht => h.1 t (hs.subset ht), h.2.sublist hs⟩

theorem WF.tail {t : Tok} {ts : List Tok} (h : WF (t :: ts)) : WF ts := h.sublist (List.sublist_cons_self _ _)

/-! ## needsNormalization -/

theorem getElem?_pre {α : Type} (pre rest : List α) (i : Nat) : (pre ++ rest)[pre.length + i]? = rest[i]? := by
  rw [List.getElem?_append_right (by omega)]; congr 1; omega

theorem getElem?_pre0 {α : Type} (pre rest : List α) : (pre ++ rest)[pre.length]? = rest.head? := by
  rw [List.getElem?_append_right (by omega)]; simp [List.head?_eq_getElem?]

theorem skipSlashes_spec (k n : Nat) (pre rest : List Char) (hr : rest.head? ≠ some '/') (hn : k < n) :
    skipSlashes n (pre ++ (List.replicate k '/' ++ rest)) pre.length = some (pre.length + k) := by
  induction k generalizing pre n with
  | zero =>
    obtain ⟨n, rfl⟩ : ∃ m, n = m + 1 := ⟨n - 1, by omega⟩
    simp only [skipSlashes, List.replicate_zero, List.nil_append, getElem?_pre0]
    cases rest with
    | nil => rfl
    | cons c cs =>
      have : c ≠ '/' := by simpa using hr
      simp [this]
  | succ k ih =>
    obtain ⟨n, rfl⟩ : ∃ m, n = m + 1 := ⟨n - 1, by omega⟩
    have := ih n (pre ++ ['/']) (by omega)
    simp only [List.append_assoc, List.singleton_append, List.length_append, List.length_singleton] at this
    simp only [skipSlashes, List.replicate_succ, List.cons_append, getElem?_pre0, List.head?_cons, if_true, this]
    congr 1; omega

theorem nnFind_spec (s : List Char) (k n : Nat) (pre rest : List Char) (normal : Bool) (hs : '/' ∉ s)
    (hr : rest.head? ≠ some '/') (hk : k = 0 → rest = []) (hn : s.length < n) :
    nnFind n (pre ++ (s ++ (List.replicate k '/' ++ rest))) pre.length normal =
      some (pre.length + s.length + k, normal && decide (k ≤ 1)) := by
  induction s generalizing pre n with
  | nil =>
    obtain ⟨n, rfl⟩ : ∃ m, n = m + 1 := ⟨n - 1, by omega⟩
    cases k with
    | zero => simp [hk rfl, nnFind]
    | succ k =>
      have := skipSlashes_spec k ((pre ++ ('/' :: (List.replicate k '/' ++ rest))).length + 1) (pre ++ ['/']) rest hr
        (by simp; omega)
      simp only [List.append_assoc, List.singleton_append, List.length_append, List.length_singleton] at this
      simp only [nnFind, List.nil_append, List.replicate_succ, List.cons_append, getElem?_pre0, List.head?_cons,
        ne_eq, not_true_eq_false, if_false]
      simp only [List.length_append, this]
      congr 2
      · simp; omega
      · congr 1
        rw [Bool.eq_iff_iff]; simp
  | cons c s ih =>
    obtain ⟨n, rfl⟩ : ∃ m, n = m + 1 := ⟨n - 1, by omega⟩
    have hc : c ≠ '/' := fun e => hs (by simp [e])
    have := ih n (pre ++ [c]) (fun hm => hs (by simp [hm])) (by simpa using hn)
    simp only [List.append_assoc, List.singleton_append, List.length_append, List.length_singleton] at this
    simp only [nnFind, List.cons_append, getElem?_pre0, List.head?_cons, ne_eq, hc, not_false_eq_true, if_true, this]
    congr 2
    simp; omega

/-- No dot segments and no repeated slashes. -/
def plain (ts : List Tok) : Bool := ts.all fun t => decide (t.1 ≠ dot) && decide (t.1 ≠ dotdot) && decide (t.2 ≤ 1)

theorem head_toks (ts : List Tok) (h : WF ts) :
    (ts.flatMap fun t => t.1 ++ List.replicate t.2 '/').head? ≠ some '/' := by
  cases ts with
  | nil => simp
  | cons t ts =>
    obtain ⟨g1, g2, _⟩ := h.1 t (by simp)
    cases ht : t.1 with
    | nil => exact absurd ht g1
    | cons c s =>
      simp only [List.flatMap_cons, ht, List.cons_append, List.head?_cons, ne_eq, Option.some.injEq]
      rintro rfl; exact g2 (by simp [ht])

/-- The text behind a segment. -/
theorem atDots_spec (s : List Char) (k : Nat) (pre rest : List Char) (hs : s ≠ []) (hg : '/' ∉ s) (hk : k = 0 → rest = []) :
    atDots (pre ++ (s ++ (List.replicate k '/' ++ rest))) pre.length = decide (s = dot ∨ s = dotdot) := by
  unfold atDots
  have e0 := getElem?_pre pre (s ++ (List.replicate k '/' ++ rest)) 0
  rw [Nat.add_zero] at e0
  rw [e0, getElem?_pre, getElem?_pre]
  match s, hs with
  | [a], _ =>
    cases k with
    | zero =>
      rw [Bool.eq_iff_iff]
      simp [hk rfl, dot, dotdot]
    | succ k =>
      rw [Bool.eq_iff_iff]
      simp [List.replicate_succ, dot, dotdot]
  | [a, b], _ =>
    have hb : b ≠ '/' := by rintro rfl; simp at hg
    cases k with
    | zero =>
      rw [Bool.eq_iff_iff]
      simp [hk rfl, dot, dotdot, hb]
    | succ k =>
      rw [Bool.eq_iff_iff]
      simp [List.replicate_succ, dot, dotdot, hb]
  | a :: b :: c :: s, _ =>
    have hb : b ≠ '/' := by rintro rfl; simp at hg
    have hc : c ≠ '/' := by rintro rfl; simp at hg
    rw [Bool.eq_iff_iff]
    simp [dot, dotdot, hb, hc]

theorem nnScan_spec (ts : List Tok) (n : Nat) (pre : List Char) (ns : Nat) (normal : Bool) (h : WF ts)
    (hn : ts.length < n) :
    nnScan n (pre ++ ts.flatMap fun t => t.1 ++ List.replicate t.2 '/') pre.length ns normal =
      some (ns + ts.length, normal && plain ts) := by
  induction ts generalizing n pre ns normal with
  | nil =>
    obtain ⟨n, rfl⟩ : ∃ m, n = m + 1 := ⟨n - 1, by omega⟩
    simp [nnScan, plain]
  | cons t ts ih =>
    obtain ⟨n, rfl⟩ : ∃ m, n = m + 1 := ⟨n - 1, by omega⟩
    obtain ⟨s, k⟩ := t
    obtain ⟨g1, g2, g3⟩ := h.1 (s, k) (by simp)
    have hp := List.pairwise_cons.1 h.2
    have hk : k = 0 → ts = [] := by
      intro h0
      cases ts with
      | nil => rfl
      | cons u us => have := hp.1 u (by simp); simp only at this; omega
    have hk' : k = 0 → (ts.flatMap fun t => t.1 ++ List.replicate t.2 '/') = [] := fun h0 => by simp [hk h0]
    have hlt : pre.length < (pre ++ (s ++ (List.replicate k '/' ++ ts.flatMap fun t => t.1 ++ List.replicate t.2 '/'))).length := by
      cases s with
      | nil => exact absurd rfl g1
      | cons c s => simp
    simp only [List.flatMap_cons, List.append_assoc, nnScan, if_pos hlt]
    rw [atDots_spec s k pre _ g1 g2 hk']
    rw [nnFind_spec s k _ pre _ _ g2 (head_toks ts h.tail) hk' (by simp; omega)]
    have := ih n (pre ++ (s ++ List.replicate k '/')) (ns + 1)
      ((if decide (s = dot ∨ s = dotdot) = true then false else normal) && decide (k ≤ 1)) h.tail (by simpa using hn)
    simp only [List.append_assoc, List.length_append, List.length_replicate] at this
    simp only
    rw [show pre.length + s.length + k = pre.length + (s.length + k) by omega, this]
    congr 2
    · simp; omega
    · simp only [plain, List.all_cons]
      by_cases h1 : s = dot <;> by_cases h2 : s = dotdot <;> simp [h1, h2, Bool.and_assoc]

theorem needs_spec (k : Nat) (ts : List Tok) (h : WF ts) :
    needsNormalization (render k ts) = some (if decide (k ≤ 1) && plain ts then none else some ts.length) := by
  have hlen : ts.length ≤ (ts.flatMap fun t => t.1 ++ List.replicate t.2 '/').length := by
    clear k
    induction ts with
    | nil => simp
    | cons t ts ih =>
      have := ih h.tail
      obtain ⟨g1, _, _⟩ := h.1 t (by simp)
      have : 0 < t.1.length := by
        cases ht : t.1 with
        | nil => exact absurd ht g1
        | cons c s => simp
      simp only [List.flatMap_cons, List.length_append, List.length_cons, List.length_replicate] at *
      omega
  have h1 := skipSlashes_spec k ((render k ts).length + 1) [] _ (head_toks ts h) (by simp [render]; omega)
  simp only [List.nil_append, List.length_nil, Nat.zero_add] at h1
  have h2 := nnScan_spec ts ((render k ts).length + 1) (List.replicate k '/') 0 (decide (k ≤ 1)) h (by simp only [render, List.length_append, List.length_replicate]; omega)
  simp only [List.length_replicate, Nat.zero_add] at h2
  simp only [needsNormalization]
  conv => lhs; unfold render
  unfold render at h1 h2
  rw [h1]
  simp only
  rw [h2]

/-! ## split -/

/-- The buffer after `split`: slashes are replaced by rune 0. -/
def cut (ts : List Tok) : List Char := ts.flatMap fun t => t.1 ++ List.replicate t.2 nul

/-- Where the segments begin. -/
def offsets : Nat → List Tok → List Nat
  | _, [] => []
  | o, t :: ts => o :: offsets (o + t.1.length + t.2) ts

theorem length_offsets (o : Nat) (ts : List Tok) : (offsets o ts).length = ts.length := by
  induction ts generalizing o with
  | nil => rfl
  | cons t ts ih => simp [offsets, ih]

theorem set_pre0 {α : Type} (pre : List α) (a b : α) (rest : List α) :
    (pre ++ a :: rest).set pre.length b = pre ++ b :: rest := by
  rw [List.set_append_right _ _ (by omega)]; simp

theorem skipNul_spec (k n : Nat) (pre rest : List Char) (hr : rest.head? ≠ some '/') (hn : k < n) :
    skipNul n (pre ++ (List.replicate k '/' ++ rest)) pre.length =
      some (pre ++ (List.replicate k nul ++ rest), pre.length + k) := by
  induction k generalizing pre n with
  | zero =>
    obtain ⟨n, rfl⟩ : ∃ m, n = m + 1 := ⟨n - 1, by omega⟩
    simp only [skipNul, List.replicate_zero, List.nil_append, getElem?_pre0]
    cases rest with
    | nil => rfl
    | cons c cs =>
      have : c ≠ '/' := by simpa using hr
      simp [this]
  | succ k ih =>
    obtain ⟨n, rfl⟩ : ∃ m, n = m + 1 := ⟨n - 1, by omega⟩
    have := ih n (pre ++ [nul]) (by omega)
    simp only [List.append_assoc, List.singleton_append, List.length_append, List.length_singleton] at this
    simp only [skipNul, List.replicate_succ, List.cons_append, getElem?_pre0, List.head?_cons, if_true, set_pre0, this]
    congr 2; omega

theorem splitFind_spec (s : List Char) (k n : Nat) (pre rest : List Char) (hs : '/' ∉ s)
    (hr : rest.head? ≠ some '/') (hk : k = 0 → rest = []) (hn : s.length < n) :
    splitFind n (pre ++ (s ++ (List.replicate k '/' ++ rest))) pre.length =
      some (pre ++ (s ++ (List.replicate k nul ++ rest)), pre.length + s.length + k) := by
  induction s generalizing pre n with
  | nil =>
    obtain ⟨n, rfl⟩ : ∃ m, n = m + 1 := ⟨n - 1, by omega⟩
    cases k with
    | zero => simp [hk rfl, splitFind]
    | succ k =>
      have := skipNul_spec k ((pre ++ ('/' :: (List.replicate k '/' ++ rest))).length + 1) (pre ++ [nul]) rest hr
        (by simp; omega)
      simp only [List.append_assoc, List.singleton_append, List.length_append, List.length_singleton] at this
      simp only [splitFind, List.nil_append, List.replicate_succ, List.cons_append, getElem?_pre0, List.head?_cons,
        ne_eq, not_true_eq_false, if_false, set_pre0]
      simp only [List.length_append, this]
      congr 2
      simp; omega
  | cons c s ih =>
    obtain ⟨n, rfl⟩ : ∃ m, n = m + 1 := ⟨n - 1, by omega⟩
    have hc : c ≠ '/' := fun e => hs (by simp [e])
    have := ih n (pre ++ [c]) (fun hm => hs (by simp [hm])) (by simpa using hn)
    simp only [List.append_assoc, List.singleton_append, List.length_append, List.length_singleton] at this
    simp only [splitFind, List.cons_append, getElem?_pre0, List.head?_cons, ne_eq, hc, not_false_eq_true, if_true, this]
    congr 2
    simp; omega

theorem splitScan_spec (ts : List Tok) (n : Nat) (pre : List Char) (done : List (Option Nat)) (h : WF ts)
    (hn : ts.length < n) :
    splitScan n (pre ++ ts.flatMap fun t => t.1 ++ List.replicate t.2 '/') (done ++ List.replicate ts.length (some 0))
      pre.length done.length =
      some (pre ++ cut ts, done ++ (offsets pre.length ts).map some) := by
  induction ts generalizing n pre done with
  | nil =>
    obtain ⟨n, rfl⟩ : ∃ m, n = m + 1 := ⟨n - 1, by omega⟩
    simp [splitScan, cut, offsets]
  | cons t ts ih =>
    obtain ⟨n, rfl⟩ : ∃ m, n = m + 1 := ⟨n - 1, by omega⟩
    obtain ⟨s, k⟩ := t
    obtain ⟨g1, g2, g3⟩ := h.1 (s, k) (by simp)
    have hp := List.pairwise_cons.1 h.2
    have hk : k = 0 → ts = [] := by
      intro h0
      cases ts with
      | nil => rfl
      | cons u us => have := hp.1 u (by simp); simp only at this; omega
    have hk' : k = 0 → (ts.flatMap fun t => t.1 ++ List.replicate t.2 '/') = [] := fun h0 => by simp [hk h0]
    simp only at g1 g2 g3
    obtain ⟨c, s', rfl⟩ : ∃ c s', s = c :: s' := by
      cases s with
      | nil => exact absurd rfl g1
      | cons c s => exact ⟨c, s, rfl⟩
    have hf := fun n hn => splitFind_spec s' k n
      (pre ++ [c]) _ (fun hm => g2 (by simp [hm])) (head_toks ts h.tail) hk' hn
    simp only [List.append_assoc, List.singleton_append, List.length_append, List.length_singleton] at hf
    have hlt : pre.length < (pre ++ (c :: s' ++ (List.replicate k '/' ++ ts.flatMap fun t => t.1 ++ List.replicate t.2 '/'))).length := by
      simp
    have hlt2 : done.length < (done ++ List.replicate (ts.length + 1) (some 0)).length := by simp
    simp only [List.flatMap_cons, List.append_assoc, List.length_cons, splitScan, if_pos hlt, if_pos hlt2]
    simp only [List.length_append, List.cons_append] at hf ⊢
    rw [hf _ (by simp only [List.length_cons, List.length_append]; omega)]
    have := ih n (pre ++ (c :: s' ++ List.replicate k nul)) (done ++ [some pre.length]) h.tail (by simpa using hn)
    simp only [List.append_assoc, List.length_append, List.length_replicate, List.singleton_append, List.length_singleton,
      List.cons_append, List.length_cons] at this
    simp only [List.replicate_succ]
    rw [set_pre0]
    rw [show pre.length + 1 + s'.length + k = pre.length + (s'.length + k + 1) by omega]
    simp only [List.length_nil, Nat.zero_add, List.nil_append] at this
    rw [this]
    congr 2
    · simp [cut]
    · simp only [offsets, List.map_cons, List.length_cons]
      rw [show pre.length + (s'.length + 1) + k = pre.length + (s'.length + k + 1) by omega]

theorem flat_length (ts : List Tok) (h : WF ts) : ts.length ≤ (ts.flatMap fun t => t.1 ++ List.replicate t.2 '/').length := by
  induction ts with
  | nil => simp
  | cons t ts ih =>
    have := ih h.tail
    obtain ⟨g1, _, _⟩ := h.1 t (by simp)
    have : 0 < t.1.length := by
      cases ht : t.1 with
      | nil => exact absurd ht g1
      | cons c s => simp
    simp only [List.flatMap_cons, List.length_append, List.length_cons, List.length_replicate] at *
    omega

theorem split_spec (k : Nat) (ts : List Tok) (h : WF ts) :
    split (render k ts) (List.replicate ts.length (some 0)) =
      some (List.replicate k nul ++ cut ts, (offsets k ts).map some) := by
  have hlen := flat_length ts h
  have h1 := skipNul_spec k ((render k ts).length + 1) [] _ (head_toks ts h) (by simp [render]; omega)
  simp only [List.nil_append, List.length_nil, Nat.zero_add] at h1
  have h2 := splitScan_spec ts ((render k ts).length + 1) (List.replicate k nul) [] h
    (by simp only [render, List.length_append, List.length_replicate]; omega)
  simp only [List.length_replicate, List.nil_append, List.length_nil] at h2
  simp only [split]
  conv => lhs; unfold render
  unfold render at h1 h2
  rw [h1]
  simp only [List.length_append, List.length_replicate] at h2 ⊢
  rw [h2]

/-! ## removeDots -/

/-- The buffer has the segment `s` at `o`, ended by rune 0 or by the end. -/
def SegAt (buf : List Char) (o : Nat) (s : List Char) : Prop :=
  ∃ tail, buf.drop o = s ++ tail ∧ (tail = [] ∨ tail.head? = some nul)

theorem getElem?_drop0 {α : Type} (l : List α) (o : Nat) (i : Nat) : l[o + i]? = (l.drop o)[i]? := by
  simp [List.getElem?_drop]

theorem dotsAt_spec (buf : List Char) (o : Nat) (s : List Char) (hg : Good s) (h : SegAt buf o s) :
    dotsAt buf o = some (if s = dot then 1 else if s = dotdot then 2 else 0) := by
  obtain ⟨tail, h1, h2⟩ := h
  obtain ⟨g1, g2, g3⟩ := hg
  have e0 := getElem?_drop0 buf o 0
  have e1 := getElem?_drop0 buf o 1
  have e2 := getElem?_drop0 buf o 2
  rw [Nat.add_zero] at e0
  have hl : buf.length = o + (s ++ tail).length := by
    have := congrArg List.length h1
    have hs : 0 < s.length := by
      cases s with
      | nil => exact absurd rfl g1
      | cons => simp
    simp only [List.length_drop, List.length_append] at this ⊢
    omega
  rw [h1] at e0 e1 e2
  unfold dotsAt
  rw [e0, e1, e2, hl]
  match s, g1 with
  | [a], _ =>
    rcases h2 with rfl | h2
    · by_cases ha : a = '.' <;> simp [dot, dotdot, ha]
    · cases tail with
      | nil => simp at h2
      | cons b tail =>
        simp only [List.head?_cons, Option.some.injEq] at h2
        subst h2
        by_cases ha : a = '.' <;> simp [dot, dotdot, ha]
  | [a, b], _ =>
    have hb : b ≠ nul := by rintro rfl; simp at g3
    rcases h2 with rfl | h2
    · by_cases ha : a = '.' <;> by_cases hb' : b = '.' <;> simp [dot, dotdot, ha, hb', hb, nul_ne_dot.symm]
    · cases tail with
      | nil => simp at h2
      | cons c tail =>
        simp only [List.head?_cons, Option.some.injEq] at h2
        subst h2
        by_cases ha : a = '.' <;> by_cases hb' : b = '.' <;> simp [dot, dotdot, ha, hb', hb, nul_ne_dot.symm]
  | a :: b :: c :: s, _ =>
    have hb : b ≠ nul := by rintro rfl; simp at g3
    have hc : c ≠ nul := by rintro rfl; simp at g3
    by_cases ha : a = '.' <;> by_cases hb' : b = '.' <;> simp [dot, dotdot, ha, hb', hb, hc, nul_ne_dot.symm]

theorem isUp_spec (buf : List Char) (o : Nat) (s : List Char) (hg : Good s) (h : SegAt buf o s)
    (hlast : o + s.length < buf.length) (hd : s ≠ dot) : isUp buf o = some (decide (s = dotdot)) := by
  obtain ⟨tail, h1, h2⟩ := h
  obtain ⟨g1, g2, g3⟩ := hg
  have e0 := getElem?_drop0 buf o 0
  have e1 := getElem?_drop0 buf o 1
  have e2 := getElem?_drop0 buf o 2
  rw [Nat.add_zero] at e0
  have ht : tail.head? = some nul := by
    rcases h2 with rfl | h2
    · have := congrArg List.length h1
      simp only [List.length_drop, List.append_nil] at this
      omega
    · exact h2
  obtain ⟨tl, rfl⟩ : ∃ tl, tail = nul :: tl := by
    cases tail with
    | nil => simp at ht
    | cons c tl => simp only [List.head?_cons, Option.some.injEq] at ht; exact ⟨tl, by rw [ht]⟩
  rw [h1] at e0 e1 e2
  unfold isUp
  rw [e0, e1, e2]
  match s, g1 with
  | [a], _ =>
    have ha : a ≠ '.' := by rintro rfl; exact hd rfl
    simp [ha, dotdot]
  | [a, b], _ =>
    by_cases ha : a = '.' <;> by_cases hb' : b = '.' <;> simp [dotdot, ha, hb']
  | a :: b :: c :: s, _ =>
    have hc : c ≠ nul := by rintro rfl; simp at g3
    by_cases ha : a = '.' <;> by_cases hb' : b = '.' <;> simp [dotdot, ha, hb', hc]

theorem findDots_some {α : Type} (off : α → Nat) (seg : α → List Char) (buf : List Char) (rest : List α)
    (hseg : ∀ x ∈ rest, SegAt buf (off x) (seg x) ∧ Good (seg x)) (n : Nat) (done : List (Option Nat)) (hr : rest ≠ [])
    (hn : rest.length ≤ n) : ∃ r, findDots n buf (done ++ rest.map fun x => some (off x)) done.length = some r := by
  induction rest generalizing n done with
  | nil => exact absurd rfl hr
  | cons x rest ih =>
    obtain ⟨n, rfl⟩ : ∃ m, n = m + 1 := ⟨n - 1, by simp only [List.length_cons] at hn; omega⟩
    obtain ⟨h1, h2⟩ := hseg x (by simp)
    simp only [findDots, List.map_cons, getElem?_pre0, List.head?_cons, dotsAt_spec buf _ _ h2 h1]
    by_cases hd : seg x = dot
    · simp [hd]
    · by_cases hdd : seg x = dotdot
      · simp [hdd, dot, dotdot]
      · simp only [hd, hdd, if_false]
        by_cases hr' : rest = []
        · subst hr'; simp
        · have : done.length + 1 < (done ++ some (off x) :: List.map (fun x => some (off x)) rest).length := by
            have : 0 < rest.length := by
              cases rest with
              | nil => exact absurd rfl hr'
              | cons => simp
            simp; omega
          rw [if_pos this]
          have := ih (fun y hy => hseg y (by simp [hy])) n (done ++ [some (off x)]) hr' (by simpa using hn)
          simpa using this

theorem findDots_mono (buf : List Char) (segs : List (Option Nat)) (n i : Nat) (r : Nat × Nat)
    (h : findDots n buf segs i = some r) : findDots (n + 1) buf segs i = some r := by
  induction n generalizing i with
  | zero => simp [findDots] at h
  | succ n ih =>
    rw [findDots] at h ⊢
    split <;> rename_i hs
    · simp only [hs] at h
      split <;> rename_i hd <;> simp only [hd] at h
      · exact h
      · split <;> rename_i hi
        · rw [if_pos hi] at h; exact ih _ h
        · rw [if_neg hi] at h; exact h
      · exact h
    · simp only at h
      exact absurd h (by simp)

theorem lastUsed_spec (l : List (Option Nat)) (j : Nat) (hj : j ≤ l.length) :
    ((l.take j).filterMap id = [] ∧ lastUsed j l = none) ∨
    ∃ d1 q d2, l.take j = d1 ++ some q :: d2 ∧ d2.filterMap id = [] ∧ lastUsed j l = some (d1.length, q) := by
  induction j with
  | zero => left; simp [lastUsed]
  | succ j ih =>
    have hlt : j < l.length := by omega
    have ht : l.take (j + 1) = l.take j ++ [l[j]] := List.take_succ_eq_append_getElem hlt
    have hg : l[j]? = some l[j] := List.getElem?_eq_getElem hlt
    cases hx : l[j] with
    | some q =>
      right
      refine ⟨l.take j, q, [], by rw [ht, hx], rfl, ?_⟩
      simp only [lastUsed, hg, hx]
      simp; omega
    | none =>
      rcases ih (by omega) with ⟨h1, h2⟩ | ⟨d1, q, d2, h1, h2, h3⟩
      · left
        refine ⟨by rw [ht, hx, List.filterMap_append, h1]; rfl, ?_⟩
        simp only [lastUsed, hg, hx, h2]
      · right
        refine ⟨d1, q, d2 ++ [none], by rw [ht, hx, h1]; simp, by simp [List.filterMap_append, h2], ?_⟩
        simp only [lastUsed, hg, hx, h3]

theorem resolve_dot {α : Type} (seg : α → List Char) (st : List α) (x : α) (xs : List α) (h : seg x = dot) :
    resolveOnto seg st (x :: xs) = resolveOnto seg st xs := by
  cases st <;> simp [resolveOnto, h]

theorem resolve_up {α : Type} (seg : α → List Char) (st : List α) (x : α) (xs : List α) (h : seg x = dotdot)
    (hst : ∀ y ∈ st.head?, seg y = dotdot) : resolveOnto seg st (x :: xs) = resolveOnto seg (x :: st) xs := by
  have : dotdot ≠ dot := by decide
  cases st with
  | nil => simp [resolveOnto, h, this]
  | cons y ys => have := hst y (by simp); simp [resolveOnto, h, this, dot, dotdot]

theorem resolve_pop {α : Type} (seg : α → List Char) (y : α) (ys : List α) (x : α) (xs : List α) (h : seg x = dotdot)
    (hy : seg y ≠ dotdot) : resolveOnto seg (y :: ys) (x :: xs) = resolveOnto seg ys xs := by
  have : dotdot ≠ dot := by decide
  simp [resolveOnto, h, this, hy]

theorem resolve_push {α : Type} (seg : α → List Char) (st : List α) (x : α) (xs : List α) (h : seg x ≠ dot)
    (h' : seg x ≠ dotdot) : resolveOnto seg st (x :: xs) = resolveOnto seg (x :: st) xs := by
  cases st <;> simp [resolveOnto, h, h']

theorem removeDots_spec {α : Type} (off : α → Nat) (seg : α → List Char) (buf : List Char) (rest : List α)
    (n : Nat) (done : List (Option Nat)) (st : List α)
    (hseg : ∀ x, x ∈ st ∨ x ∈ rest → SegAt buf (off x) (seg x) ∧ Good (seg x))
    (hnl : (st.reverse ++ rest).Pairwise fun x _ => off x + (seg x).length < buf.length)
    (hst : ∀ x ∈ st, seg x ≠ dot)
    (hdone : done.filterMap id = st.reverse.map off)
    (hn : rest.length < n) :
    ∃ segs, removeDotsFrom n buf (done ++ rest.map fun x => some (off x)) done.length = some segs ∧
      segs.filterMap id = (resolveOnto seg st rest).map off ∧
      ∀ (i : Nat) (o : Nat), segs[i]? = some (some o) → (done ++ rest.map fun x => some (off x))[i]? = some (some o) := by
  induction rest generalizing n done st with
  | nil =>
    obtain ⟨n, rfl⟩ : ∃ m, n = m + 1 := ⟨n - 1, by omega⟩
    refine ⟨done, ?_, ?_, ?_⟩
    · simp [removeDotsFrom]
    · simp [resolveOnto, hdone]
    · intro i o h; simpa using h
  | cons x rest ih =>
    obtain ⟨n, rfl⟩ : ∃ m, n = m + 1 := ⟨n - 1, by simp only [List.length_cons] at hn; omega⟩
    obtain ⟨h1, h2⟩ := hseg x (by simp)
    have hlt : done.length < (done ++ (x :: rest).map fun x => some (off x)).length := by simp
    have hget : (done ++ (x :: rest).map fun x => some (off x))[done.length]? = some (some (off x)) := by
      simp [getElem?_pre0]
    rw [removeDotsFrom, if_pos hlt]
    have hfd : ∀ m, findDots (m + 1) buf (done ++ (x :: rest).map fun x => some (off x)) done.length =
        if seg x = dot then some (done.length, 1) else if seg x = dotdot then some (done.length, 2)
        else if done.length + 1 < (done ++ (x :: rest).map fun x => some (off x)).length
          then findDots m buf (done ++ (x :: rest).map fun x => some (off x)) (done.length + 1)
          else some (done.length + 1, 0) := by
      intro m
      rw [findDots, hget]
      simp only [dotsAt_spec buf _ _ h2 h1]
      by_cases hd : seg x = dot
      · simp [hd]
      · by_cases hdd : seg x = dotdot
        · simp [hdd, dot, dotdot]
        · simp [hd, hdd]
    rw [hfd]
    have hset : ∀ y : Option Nat, (done ++ (x :: rest).map fun x => some (off x)).set done.length y =
        (done ++ [y]) ++ rest.map fun x => some (off x) := by
      intro y; rw [List.map_cons, set_pre0]; simp
    by_cases hd : seg x = dot
    · simp only [if_pos hd]
      rw [if_neg (by omega)]
      rw [if_pos trivial, hset]
      have := ih n (done ++ [none]) st (fun y hy => hseg y (by rcases hy with h | h <;> simp [h]))
        (hnl.sublist (by simp)) hst (by simp [List.filterMap_append, hdone]) (by simpa using hn)
      obtain ⟨segs, e1, e2, e3⟩ := this
      refine ⟨segs, by simpa using e1, ?_, ?_⟩
      · rw [e2, resolve_dot seg st x rest hd]
      · intro i o hi
        have := e3 i o hi
        rw [← hset, List.getElem?_set] at this
        split at this
        · first | (split at this <;> simp at this) | simp at this
        · exact this
    · by_cases hdd : seg x = dotdot
      · simp only [if_neg hd, if_pos hdd]
        rw [if_neg (by omega), if_neg (by omega)]
        have hld := lastUsed_spec (done ++ (x :: rest).map fun x => some (off x)) done.length (by simp)
        simp only [List.take_left] at hld
        rcases hld with ⟨hu1, hu2⟩ | ⟨d1, q, d2, hu1, hu2, hu3⟩
        · simp only [hu2]
          have hst' : st = [] := by
            rw [hu1] at hdone
            simpa using hdone.symm
          subst hst'
          have := ih n (done ++ [some (off x)]) [x] (fun y hy => hseg y (by rcases hy with h | h <;> simp_all))
            (by simpa using hnl) (by simpa using hd) (by simp [List.filterMap_append, hdone]) (by simpa using hn)
          obtain ⟨segs, e1, e2, e3⟩ := this
          refine ⟨segs, by simpa using e1, ?_, ?_⟩
          · rw [e2, resolve_up seg _ x rest hdd (by simp)]
          · intro i o hi; simpa using e3 i o hi
        · simp only [hu3]
          -- the stack is not empty
          obtain ⟨y, ys, rfl⟩ : ∃ y ys, st = y :: ys := by
            cases st with
            | nil =>
              rw [hu1] at hdone
              simp [List.filterMap_append] at hdone
            | cons y ys => exact ⟨y, ys, rfl⟩
          have hq : d1.filterMap id = ys.reverse.map off ∧ q = off y := by
            rw [hu1] at hdone
            simp only [List.filterMap_append, List.filterMap_cons, id_eq, hu2, List.reverse_cons, List.map_append,
              List.map_cons, List.map_nil] at hdone
            have := List.append_inj' hdone (by simp)
            refine ⟨this.1, by simpa using this.2⟩
          obtain ⟨hq1, rfl⟩ := hq
          obtain ⟨hy1, hy2⟩ := hseg y (by simp)
          have hylast : off y + (seg y).length < buf.length := by
            have := hnl
            simp only [List.reverse_cons, List.append_assoc, List.singleton_append] at this
            have := (List.pairwise_append.1 this).2.1
            exact (List.pairwise_cons.1 this).1 x (by simp)
          rw [isUp_spec buf (off y) (seg y) hy2 hy1 hylast (hst y (by simp))]
          by_cases hyd : seg y = dotdot
          · simp only [hyd, decide_true]
            have := ih n (done ++ [some (off x)]) (x :: y :: ys)
              (fun z hz => hseg z (by rcases hz with h | h <;> simp at h ⊢ <;> grind))
              (by simpa using hnl) (by intro z hz; rcases List.mem_cons.1 hz with rfl | hz; exact hd; exact hst z hz)
              (by simp [List.filterMap_append, hdone]) (by simpa using hn)
            obtain ⟨segs, e1, e2, e3⟩ := this
            refine ⟨segs, by simpa using e1, ?_, ?_⟩
            · rw [e2, resolve_up seg _ x rest hdd (by simpa using hyd)]
            · intro i o hi; simpa using e3 i o hi
          · simp only [hyd, decide_false]
            have hset2 : ((done ++ (x :: rest).map fun x => some (off x)).set done.length none).set d1.length none =
                (d1 ++ none :: d2 ++ [none]) ++ rest.map fun x => some (off x) := by
              rw [hset, hu1]
              simp only [List.append_assoc, List.cons_append]
              rw [set_pre0]
            rw [hset2]
            have hlen : (d1 ++ none :: d2 ++ [none]).length = done.length + 1 := by rw [hu1]; simp; omega
            have := ih n (d1 ++ none :: d2 ++ [none]) ys
              (fun z hz => hseg z (by rcases hz with h | h <;> simp [h]))
              (hnl.sublist (by simp)) (fun z hz => hst z (by simp [hz]))
              (by simp [List.filterMap_append, hq1, hu2]) (by simpa using hn)
            rw [hlen] at this
            obtain ⟨segs, e1, e2, e3⟩ := this
            refine ⟨segs, e1, ?_, ?_⟩
            · rw [e2, resolve_pop seg y ys x rest hdd hyd]
            · intro i o hi
              have := e3 i o hi
              rw [← hset2, List.getElem?_set] at this
              split at this
              · first | (split at this <;> simp at this) | simp at this
              · rw [List.getElem?_set] at this
                split at this
                · first | (split at this <;> simp at this) | simp at this
                · exact this
      · simp only [if_neg hd, if_neg hdd]
        have := ih (n + 1) (done ++ [some (off x)]) (x :: st) (fun y hy => hseg y (by rcases hy with h | h <;> simp at h ⊢ <;> grind))
            (by simpa using hnl) (by intro z hz; rcases List.mem_cons.1 hz with rfl | hz; exact hd; exact hst z hz)
            (by simp [List.filterMap_append, hdone]) (by simp only [List.length_cons] at hn; omega)
        obtain ⟨segs, e1, e2, e3⟩ := this
        refine ⟨segs, ?_, ?_, ?_⟩
        · by_cases hr : rest = []
          · subst hr
            simp only [List.map_nil, List.append_nil, removeDotsFrom, List.length_append, List.length_singleton,
              Nat.lt_irrefl, if_false] at e1
            simp only [List.map_cons, List.map_nil, List.length_append, List.length_cons, List.length_nil, Nat.lt_irrefl,
              if_false, Nat.zero_add, or_true, if_true]
            exact e1
          · have hl : done.length + 1 < (done ++ (x :: rest).map fun x => some (off x)).length := by
              have : 0 < rest.length := by
                cases rest with
                | nil => exact absurd rfl hr
                | cons => simp
              simp; omega
            rw [if_pos hl]
            obtain ⟨r, hr'⟩ := findDots_some off seg buf rest (fun y hy => hseg y (by simp [hy]))
              (done ++ (x :: rest).map fun x => some (off x)).length (done ++ [some (off x)]) hr (by simp; omega)
            have hr'' := findDots_mono _ _ _ _ _ hr'
            simp only [List.append_assoc, List.singleton_append, List.length_append, List.length_singleton, List.length_cons,
              List.length_map, List.map_cons, removeDotsFrom, List.length_nil, Nat.zero_add, List.nil_append] at e1 hr' hr'' hl ⊢
            rw [if_pos hl] at e1
            rw [hr'']at e1
            rw [hr']
            exact e1
        · rw [e2, resolve_push seg st x rest hd hdd]
        · intro i o hi; simpa using e3 i o hi

/-! ## join -/

theorem joinSkip_spec (s : List Char) (n : Nat) (pre tail : List Char) (hs : nul ∉ s) (hn : s.length < n)
    (ht : tail = [] ∨ tail.head? = some nul) :
    joinSkip n (pre ++ (s ++ tail)) pre.length =
      some (match tail with
        | [] => (pre ++ s, pre.length + s.length)
        | _ :: tl => (pre ++ (s ++ '/' :: tl), pre.length + s.length + 1)) := by
  induction s generalizing pre n with
  | nil =>
    obtain ⟨n, rfl⟩ : ∃ m, n = m + 1 := ⟨n - 1, by omega⟩
    rcases ht with rfl | ht
    · simp [joinSkip]
    · cases tail with
      | nil => simp at ht
      | cons c tl =>
        simp only [List.head?_cons, Option.some.injEq] at ht
        subst ht
        simp only [joinSkip, List.nil_append, getElem?_pre0, List.head?_cons, ne_eq, not_true_eq_false, if_false, set_pre0]
        rfl
  | cons c s ih =>
    obtain ⟨n, rfl⟩ : ∃ m, n = m + 1 := ⟨n - 1, by omega⟩
    have hc : c ≠ nul := fun e => hs (by simp [e])
    have := ih n (pre ++ [c]) (fun hm => hs (by simp [hm])) (by simpa using hn)
    simp only [List.append_assoc, List.singleton_append, List.length_append, List.length_singleton] at this
    simp only [joinSkip, List.cons_append, getElem?_pre0, List.head?_cons, ne_eq, hc, not_false_eq_true, if_true, this]
    cases tail <;> simp <;> omega

theorem joinCopy_spec (s : List Char) (n : Nat) (pre mid tail : List Char) (hs : nul ∉ s) (hn : s.length < n)
    (hm : mid ≠ []) (ht : tail = [] ∨ tail.head? = some nul) :
    ∃ junk, junk.length = mid.length ∧ joinCopy n (pre ++ (mid ++ (s ++ tail))) pre.length (pre.length + mid.length) =
      some (match tail with
        | [] => (pre ++ (s ++ junk), pre.length + s.length)
        | _ :: tl => (pre ++ (s ++ '/' :: (junk ++ tl)), pre.length + s.length + 1)) := by
  induction s generalizing pre mid n with
  | nil =>
    obtain ⟨n, rfl⟩ : ∃ m, n = m + 1 := ⟨n - 1, by omega⟩
    rcases ht with rfl | ht
    · exact ⟨mid, rfl, by simp [joinCopy]⟩
    · cases tail with
      | nil => simp at ht
      | cons c tl =>
        simp only [List.head?_cons, Option.some.injEq] at ht
        subst ht
        obtain ⟨m, mid, rfl⟩ : ∃ m mid', mid = m :: mid' := by
          cases mid with
          | nil => exact absurd rfl hm
          | cons m mid => exact ⟨m, mid, rfl⟩
        refine ⟨mid ++ [nul], by simp, ?_⟩
        simp only [joinCopy, getElem?_pre, List.nil_append, getElem?_pre0, List.head?_cons, ne_eq, not_true_eq_false, if_false]
        rw [List.cons_append, set_pre0]
        simp
  | cons c s ih =>
    obtain ⟨n, rfl⟩ : ∃ m, n = m + 1 := ⟨n - 1, by omega⟩
    have hc : c ≠ nul := fun e => hs (by simp [e])
    obtain ⟨m, mid, rfl⟩ : ∃ m mid', mid = m :: mid' := by
      cases mid with
      | nil => exact absurd rfl hm
      | cons m mid => exact ⟨m, mid, rfl⟩
    obtain ⟨junk, hj, this⟩ := ih n (pre ++ [c]) (mid ++ [c]) (fun hm => hs (by simp [hm])) (by simpa using hn) (by simp)
    refine ⟨junk, by simpa using hj, ?_⟩
    simp only [List.append_assoc, List.singleton_append, List.length_append, List.length_singleton] at this
    have hg : (pre ++ (m :: mid ++ (c :: s ++ tail)))[pre.length + (m :: mid).length]? = some c := by
      rw [getElem?_pre, getElem?_pre0]; rfl
    rw [joinCopy, hg]
    simp only [ne_eq, hc, not_false_eq_true, if_true]
    rw [List.cons_append, set_pre0, List.length_cons, show pre.length + (mid.length + 1) + 1 = pre.length + 1 + (mid.length + 1) by omega]
    rw [List.cons_append, this]
    cases tail <;> simp <;> omega

/-- One segment of `join`. -/
structure Piece where
  off : Nat
  seg : List Char
  slash : Bool

/-- The piece is in the buffer. -/
def Piece.At (x : Piece) (buf : List Char) : Prop :=
  nul ∉ x.seg ∧ x.off ≤ buf.length ∧ ∃ tail, buf.drop x.off = x.seg ++ tail ∧
    if x.slash then tail.head? = some nul else tail = []

def Piece.text (x : Piece) : List Char := x.seg ++ if x.slash then ['/'] else []

theorem take_of_append {α : Type} (l : List α) (a b : List α) (h : l = a ++ b) (n : Nat) (hn : n = a.length) : l.take n = a := by
  subst h; subst hn; simp

theorem drop_eq_of {α : Type} {l a b : List α} (h : l = a ++ b) {n : Nat} (hn : a.length ≤ n) : l.drop n = b.drop (n - a.length) := by
  subst h
  rw [List.drop_append]
  simp [List.drop_eq_nil_of_le hn]

theorem joinStep_spec (x : Piece) (buf : List Char) (p : Nat) (hx : x.At buf) (hp : p ≤ x.off) (segs : List (Option Nat)) :
    ∃ buf' p', joinLoop buf (some x.off :: segs) p = joinLoop buf' segs p' ∧ buf'.length = buf.length ∧
      p' ≤ x.off + x.text.length ∧ p' ≤ buf.length ∧
      buf'.take p' = buf.take p ++ x.text ∧ ∀ m, x.off + x.seg.length + 1 ≤ m → buf'.drop m = buf.drop m := by
  obtain ⟨hs, ho, tail, h1, h2⟩ := hx
  have ht : tail = [] ∨ tail.head? = some nul := by
    by_cases h : x.slash
    · rw [if_pos h] at h2; exact Or.inr h2
    · rw [if_neg h] at h2; exact Or.inl h2
  have hbuf : buf = buf.take x.off ++ (x.seg ++ tail) := by rw [← h1, List.take_append_drop]
  have hl : (buf.take x.off).length = x.off := by simp [ho]
  have hlen : buf.length = x.off + x.seg.length + tail.length := by
    have := congrArg List.length hbuf
    simp only [List.length_append, hl] at this; omega
  by_cases he : p = x.off
  · subst he
    have hj := joinSkip_spec x.seg (buf.length + 1) (buf.take x.off) tail hs (by omega) ht
    rw [hl, ← hbuf] at hj
    cases tail with
    | nil =>
      simp only [joinLoop, if_true, hj]
      have hsl : x.slash = false := by
        cases hx : x.slash with
        | false => rfl
        | true => rw [if_pos hx] at h2; simp at h2
      simp only [List.append_nil] at hbuf
      refine ⟨_, _, rfl, ?_, ?_, ?_, ?_, ?_⟩
      · simp [hl, hlen]
      · simp [Piece.text, hsl]
      · simp only [List.length_nil] at hlen; omega
      · simp only [Piece.text, hsl, Bool.false_eq_true, if_false, List.append_nil]
        exact take_of_append _ _ [] (by simp) _ (by simp [hl])
      · intro m hm; rw [← hbuf]
    | cons c tl =>
      have hsl : x.slash = true := by
        cases hx : x.slash with
        | true => rfl
        | false => rw [hx] at h2; simp at h2
      simp only [List.length_cons] at hlen
      simp only [joinLoop, if_true, hj]
      refine ⟨_, _, rfl, ?_, ?_, ?_, ?_, ?_⟩
      · simp [hl, hlen]; omega
      · simp [Piece.text, hsl]; omega
      · omega
      · simp only [Piece.text, hsl, if_true]
        exact take_of_append _ _ tl (by simp) _ (by simp [hl]; omega)
      · intro m hm
        conv => rhs; rw [hbuf]
        refine (drop_eq_of (a := buf.take x.off ++ (x.seg ++ ['/'])) (b := tl) (by simp) (by simp; omega)).trans ?_
        refine Eq.trans ?_ (drop_eq_of (a := buf.take x.off ++ (x.seg ++ [c])) (b := tl) (by simp) (by simp; omega)).symm
        simp
  · have hlt : p < x.off := by omega
    have hmid : buf.take x.off = buf.take p ++ (buf.take x.off).drop p := by
      conv => lhs; rw [← List.take_append_drop p (buf.take x.off)]
      rw [List.take_take, Nat.min_eq_left hp]
    have hpl : (buf.take p).length = p := by simp; omega
    have hml : ((buf.take x.off).drop p).length = x.off - p := by simp; omega
    generalize hmd : (buf.take x.off).drop p = mid at hmid hml
    have hbuf2 : buf = buf.take p ++ (mid ++ (x.seg ++ tail)) := by rw [← List.append_assoc, ← hmid, ← hbuf]
    obtain ⟨junk, hjl, hj⟩ := joinCopy_spec x.seg (buf.length + 1) (buf.take p) mid tail hs (by omega)
      (by intro e; rw [e] at hml; simp only [List.length_nil] at hml; omega) ht
    rw [← hbuf2, hpl, hml, show p + (x.off - p) = x.off by omega] at hj
    cases tail with
    | nil =>
      simp only [joinLoop, if_neg he, if_pos hlt, hj]
      have hsl : x.slash = false := by
        cases hx : x.slash with
        | false => rfl
        | true => rw [if_pos hx] at h2; simp at h2
      simp only [List.length_nil] at hlen
      refine ⟨_, _, rfl, ?_, ?_, ?_, ?_, ?_⟩
      · simp only [List.length_append, hpl, hjl, hml]; omega
      · simp [Piece.text, hsl]; omega
      · omega
      · simp only [Piece.text, hsl, Bool.false_eq_true, if_false, List.append_nil]
        exact take_of_append _ _ junk (by simp) _ (by simp only [List.length_append, hpl])
      · intro m hm
        rw [List.drop_eq_nil_of_le, List.drop_eq_nil_of_le]
        · omega
        · simp only [List.length_append, hpl, hjl, hml]; omega
    | cons c tl =>
      have hsl : x.slash = true := by
        cases hx : x.slash with
        | true => rfl
        | false => rw [hx] at h2; simp at h2
      simp only [List.length_cons] at hlen
      simp only [joinLoop, if_neg he, if_pos hlt, hj]
      refine ⟨_, _, rfl, ?_, ?_, ?_, ?_, ?_⟩
      · simp only [List.length_append, List.length_cons, hpl, hjl, hml]; omega
      · simp [Piece.text, hsl]; omega
      · omega
      · simp only [Piece.text, hsl, if_true]
        exact take_of_append _ _ (junk ++ tl) (by simp) _ (by simp only [List.length_append, hpl, List.length_singleton]; omega)
      · intro m hm
        conv => rhs; rw [hbuf2]
        refine (drop_eq_of (a := buf.take p ++ (x.seg ++ '/' :: junk)) (b := tl) (by simp)
          (by simp only [List.length_append, List.length_cons, hpl, hjl, hml]; omega)).trans ?_
        refine Eq.trans ?_ (drop_eq_of (a := buf.take p ++ (mid ++ (x.seg ++ [c]))) (b := tl) (by simp)
          (by simp only [List.length_append, List.length_cons, List.length_nil, hpl, hml]; omega)).symm
        congr 1
        simp only [List.length_append, List.length_cons, List.length_nil, hpl, hjl, hml]; omega

theorem joinLoop_spec (segs : List (Option Nat)) (xs : List Piece) (buf : List Char) (p : Nat)
    (hsegs : segs.filterMap id = xs.map (·.off)) (hat : ∀ x ∈ xs, x.At buf) (hp : ∀ x ∈ xs, p ≤ x.off) (hpl : p ≤ buf.length)
    (hord : xs.Pairwise fun x y => x.off + x.seg.length + 1 ≤ y.off) :
    ∃ buf' p', joinLoop buf segs p = some (buf', p') ∧ buf'.take p' = buf.take p ++ xs.flatMap Piece.text := by
  induction segs generalizing xs buf p with
  | nil =>
    have : xs = [] := by simpa using hsegs.symm
    subst this
    exact ⟨buf, p, rfl, by simp⟩
  | cons s segs ih =>
    cases s with
    | none =>
      simp only [joinLoop]
      exact ih xs buf p (by simpa using hsegs) hat hp hpl hord
    | some o =>
      cases xs with
      | nil => simp at hsegs
      | cons x xs =>
        simp only [List.filterMap_cons, id_eq, List.map_cons, List.cons.injEq] at hsegs
        obtain ⟨rfl, hsegs⟩ := hsegs
        obtain ⟨buf', p', e1, e2, e3, e3', e4, e5⟩ := joinStep_spec x buf p (hat x (by simp)) (hp x (by simp)) segs
        have ho := List.pairwise_cons.1 hord
        have htl : x.text.length ≤ x.seg.length + 1 := by unfold Piece.text; split <;> simp
        obtain ⟨buf2, p2, f1, f2⟩ := ih xs buf' p' hsegs
          (by
            intro y hy
            obtain ⟨a1, a2, a3⟩ := hat y (by simp [hy])
            exact ⟨a1, by omega, by rw [e5 y.off (ho.1 y hy)]; exact a3⟩)
          (by intro y hy; have := ho.1 y hy; omega) (by omega) ho.2
        refine ⟨buf2, p2, e1.trans f1, ?_⟩
        rw [f2, e4]; simp

end Verif.URI
