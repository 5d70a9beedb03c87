import Verif.Model.XMLPrefix

/-!
# C42: XML prefixes are allocated uniquely, C53: every prefix written is declared
-/

namespace Verif.XMLPrefix

/-! ## Names with a number -/

theorem numbered_toList (p : String) : (numbered p 1).toList = p.toList ++ ['_', '1'] := by
  have : (toString 1 : String) = "1" := by decide
  simp [numbered, this]

theorem numbered_inj {p q : String} (h : numbered p 1 = numbered q 1) : p = q := by
  have := congrArg String.toList h
  rw [numbered_toList, numbered_toList] at this
  exact String.toList_inj.1 (List.append_cancel_right this)

theorem numbered_ne_xsi (p : String) : numbered p 1 ≠ xsiNS := by
  intro h
  have := congrArg (fun s => s.toList.getLast?) h
  simp [numbered_toList, xsiNS] at this

theorem nextIndex_true (n i : Nat) : nextIndex n true i = none := by
  induction n generalizing i with
  | zero => rfl
  | succ n ih => simp [nextIndex, ih]

theorem nextIndex_some {n : Nat} {b : Bool} {i j : Nat} (h : nextIndex n b i = some j) : b = false ∧ j = i := by
  cases b with
  | true => rw [nextIndex_true] at h; cases h
  | false =>
    cases n with
    | zero => cases h
    | succ n => simp [nextIndex] at h; exact ⟨rfl, h.symm⟩

theorem put_same {α β : Type} [DecidableEq α] (m : α → β) (k : α) (v : β) : put m k v k = v := by simp [put]

theorem put_ne {α β : Type} [DecidableEq α] (m : α → β) {k x : α} (v : β) (h : x ≠ k) : put m k v x = m x := by
  simp [put, h]

/-! ## Saving -/

/-- every prefix known is bound to the namespace it is known for -/
structure Inv (w : World) (s : Enc) : Prop where
  packages : ∀ p q, s.packages p = some q → s.prefixesToURI q = some (w.nsURI p)
  uris : ∀ u, ∀ q ∈ s.uriToPrefixes u, s.prefixesToURI q = some u
  xsi : ∀ u, s.prefixesToURI xsiNS = some u → u = xsiURI

/-- bindings are kept -/
def Keeps (s s' : Enc) : Prop := ∀ q u, s.prefixesToURI q = some u → s'.prefixesToURI q = some u

/-- what `getPrefix` does when it terminates -/
theorem getPrefix_cases {w : World} {fuel : Nat} {s s' : Enc} {p : Nat} {must : Bool} {q : String}
    (h : getPrefix w fuel s p must = some (s', q)) :
    (s' = s ∧ s.packages p = some q) ∨
    (s.packages p = none ∧ q ∈ s.uriToPrefixes (w.nsURI p) ∧ s' = { s with packages := put s.packages p (some q) }) ∨
    (s.packages p = none ∧ (∀ u, s.prefixesToURI q = some u → u = w.nsURI p) ∧
      (q = (if w.nsPrefix p = "" ∧ must then "_" else w.nsPrefix p) ∨
       q = numbered (if w.nsPrefix p = "" ∧ must then "_" else w.nsPrefix p) 1) ∧
      s' = { s with prefixesToURI := put s.prefixesToURI q (some (w.nsURI p)), packages := put s.packages p (some q) }) := by
  unfold getPrefix at h
  split at h
  · rename_i q' e
    simp only [Option.some.injEq, Prod.mk.injEq] at h
    obtain ⟨rfl, rfl⟩ := h
    exact .inl ⟨rfl, e⟩
  · rename_i e
    simp only at h
    split at h
    · rename_i q' e'
      simp only [Option.some.injEq, Prod.mk.injEq] at h
      obtain ⟨rfl, rfl⟩ := h
      exact .inr (.inl ⟨e, List.mem_of_find?_eq_some e', rfl⟩)
    · right; right
      simp only [Option.map_eq_some_iff, Prod.mk.injEq] at h
      obtain ⟨q', hq, rfl, rfl⟩ := h
      refine ⟨e, ?_, ?_, rfl⟩
      · intro u hu
        split at hq
        · rename_i uri huri
          split at hq
          · simp only [Option.map_eq_some_iff] at hq
            obtain ⟨i, hi, rfl⟩ := hq
            obtain ⟨hb, rfl⟩ := nextIndex_some hi
            rw [hu] at hb; cases hb
          · rename_i hne
            simp only [Option.some.injEq] at hq
            subst hq
            rw [huri] at hu
            simp only [Option.some.injEq] at hu
            subst hu
            simpa using hne
        · rename_i hnone
          simp only [Option.some.injEq] at hq
          subst hq
          rw [hnone] at hu; cases hu
      · split at hq
        · split at hq
          · simp only [Option.map_eq_some_iff] at hq
            obtain ⟨i, hi, rfl⟩ := hq
            obtain ⟨-, rfl⟩ := nextIndex_some hi
            exact .inr rfl
          · simp only [Option.some.injEq] at hq; exact .inl hq.symm
        · simp only [Option.some.injEq] at hq; exact .inl hq.symm

/-- no package wants the prefix `xsi` for another namespace -/
def FreeXsi (w : World) (us : List Use) : Prop :=
  ∀ p must, Use.name p must ∈ us → w.nsPrefix p = xsiNS → w.nsURI p = xsiURI

theorem getPrefix_inv {w : World} {fuel : Nat} {s s' : Enc} {p : Nat} {must : Bool} {q : String}
    (h : getPrefix w fuel s p must = some (s', q)) (hi : Inv w s) (hx : w.nsPrefix p = xsiNS → w.nsURI p = xsiURI) :
    Inv w s' ∧ Keeps s s' ∧ s'.prefixesToURI q = some (w.nsURI p) := by
  rcases getPrefix_cases h with ⟨rfl, e⟩ | ⟨e, hq, rfl⟩ | ⟨e, hq, hform, rfl⟩
  · exact ⟨hi, fun _ _ h => h, hi.packages p q e⟩
  · have hb := hi.uris _ q hq
    refine ⟨⟨?_, hi.uris, hi.xsi⟩, fun _ _ h => h, hb⟩
    intro p' q' h'
    by_cases hp : p' = p
    · subst hp
      have : some q = some q' := by simpa [put] using h'
      cases this; exact hb
    · exact hi.packages p' q' (by simpa [put, hp] using h')
  · have keep : ∀ q' u, s.prefixesToURI q' = some u → put s.prefixesToURI q (some (w.nsURI p)) q' = some u := by
      intro q' u h'
      by_cases e' : q' = q
      · subst e'; rw [put_same, hq u h']
      · rw [put_ne _ _ e']; exact h'
    refine ⟨⟨?_, fun u q' hm => keep _ _ (hi.uris u q' hm), ?_⟩, keep, put_same _ _ _⟩
    · intro p' q' h'
      by_cases hp : p' = p
      · subst hp
        have : some q = some q' := by simpa [put] using h'
        cases this
        exact put_same _ _ _
      · have h'' : s.packages p' = some q' := by simpa [put, hp] using h'
        exact keep _ _ (hi.packages p' q' h'')
    · intro u hu
      by_cases e' : xsiNS = q
      · subst e'
        have hu' : w.nsURI p = u := by simpa [put] using hu
        subst hu'
        rcases hform with hf | hf
        · by_cases hm : w.nsPrefix p = "" ∧ must = true
          · rw [if_pos hm] at hf; simp [xsiNS] at hf
          · rw [if_neg hm] at hf; exact hx hf.symm
        · exact absurd hf.symm (numbered_ne_xsi _)
      · have : s.prefixesToURI xsiNS = some u := by simpa [put, e'] using hu
        exact hi.xsi u this

theorem declareXsi_inv {w : World} {s : Enc} (hi : Inv w s) : Inv w (declareXsi s) ∧ Keeps s (declareXsi s) ∧
    (declareXsi s).prefixesToURI xsiNS = some xsiURI := by
  have keep : Keeps s (declareXsi s) := by
    intro q u h
    by_cases e : q = xsiNS
    · subst e; simp [declareXsi, put, hi.xsi u h]
    · simp [declareXsi, put, e, h]
  refine ⟨⟨fun p q h => keep _ _ (hi.packages p q h), ?_, ?_⟩, keep, by simp [declareXsi, put]⟩
  · intro u q hq
    by_cases e : u = xsiURI
    · subst e
      have : q = xsiNS := by simpa [declareXsi, put] using hq
      subst this; simp [declareXsi, put]
    · exact keep _ _ (hi.uris u q (by simpa [declareXsi, put, e] using hq))
  · intro u h
    have : xsiURI = u := by simpa [declareXsi, put] using h
    exact this.symm

/-- all prefixes written are declared, except maybe `xsi` -/
theorem save_inv {w : World} {fuel : Nat} (us : List Use) : ∀ {s s' : Enc} {used : List (String × String)},
    save w fuel s us = some (s', used) → Inv w s → FreeXsi w us →
    Inv w s' ∧ Keeps s s' ∧ (∀ x ∈ used, s'.prefixesToURI x.1 = some x.2 ∨ Use.saveNil ∈ us ∧ x = (xsiNS, xsiURI)) ∧
      (Use.typeAttribute ∈ us ∨ Use.nilItem ∈ us → s'.prefixesToURI xsiNS = some xsiURI) := by
  induction us with
  | nil =>
    intro s s' used h hi _
    simp only [save, Option.some.injEq, Prod.mk.injEq] at h
    obtain ⟨rfl, rfl⟩ := h
    exact ⟨hi, fun _ _ h => h, by simp, by simp⟩
  | cons u us ih =>
    intro s s' used h hi hx
    simp only [save, Option.bind_eq_some_iff, Option.map_eq_some_iff, Prod.mk.injEq] at h
    obtain ⟨⟨s1, x⟩, h1, ⟨s2, used2⟩, h2, rfl, rfl⟩ := h
    have hx2 : FreeXsi w us := fun p m hm => hx p m (by simp [hm])
    have one : Inv w s1 ∧ Keeps s s1 ∧ (s1.prefixesToURI x.1 = some x.2 ∨ u = .saveNil ∧ x = (xsiNS, xsiURI)) ∧
        (u = .typeAttribute ∨ u = .nilItem → s1.prefixesToURI xsiNS = some xsiURI) := by
      cases u with
      | name p must =>
        simp only [use, Option.map_eq_some_iff, Prod.mk.injEq] at h1
        obtain ⟨⟨s3, q⟩, h3, rfl, rfl⟩ := h1
        obtain ⟨a, b, c⟩ := getPrefix_inv h3 hi (hx p must (by simp))
        exact ⟨a, b, .inl c, by simp⟩
      | typeAttribute =>
        simp only [use, Option.some.injEq, Prod.mk.injEq] at h1
        obtain ⟨rfl, rfl⟩ := h1
        obtain ⟨a, b, c⟩ := declareXsi_inv hi
        exact ⟨a, b, .inl c, fun _ => c⟩
      | nilItem =>
        simp only [use, Option.some.injEq, Prod.mk.injEq] at h1
        obtain ⟨rfl, rfl⟩ := h1
        obtain ⟨a, b, c⟩ := declareXsi_inv hi
        exact ⟨a, b, .inl c, fun _ => c⟩
      | saveNil =>
        simp only [use, Option.some.injEq, Prod.mk.injEq] at h1
        obtain ⟨rfl, rfl⟩ := h1
        exact ⟨hi, fun _ _ h => h, .inr ⟨rfl, rfl⟩, by simp⟩
    obtain ⟨i1, k1, x1, y1⟩ := one
    obtain ⟨i2, k2, x2, y2⟩ := ih h2 i1 hx2
    refine ⟨i2, fun q v h => k2 _ _ (k1 _ _ h), ?_, ?_⟩
    · intro y hy
      rcases List.mem_cons.1 hy with rfl | hy
      · rcases x1 with x1 | ⟨x1, x1'⟩
        · exact .inl (k2 _ _ x1)
        · exact .inr ⟨by simp [x1], x1'⟩
      · rcases x2 y hy with h | ⟨h, h'⟩
        · exact .inl h
        · exact .inr ⟨by simp [h], h'⟩
    · intro hm
      rcases hm with hm | hm <;> rcases List.mem_cons.1 hm with hm | hm
      · exact k2 _ _ (y1 (.inl hm.symm))
      · exact y2 (.inl hm)
      · exact k2 _ _ (y1 (.inr hm.symm))
      · exact y2 (.inr hm)

/-- The prefix map of the root object binds each prefix once, packages to their own namespace, and
`xsi` to nothing else. -/
def GoodMap (w : World) (bs : List (String × String × Option Nat)) : Prop :=
  (bs.map (·.1)).Nodup ∧ (∀ b ∈ bs, ∀ p, b.2.2 = some p → w.nsURI p = b.2.1) ∧ (∀ b ∈ bs, b.1 = xsiNS → b.2.1 = xsiURI)

theorem bindAll_inv {w : World} (bs : List (String × String × Option Nat)) : ∀ {s : Enc}, Inv w s →
    (∀ b ∈ bs, s.prefixesToURI b.1 = none) → GoodMap w bs → Inv w (bindAll s bs) := by
  induction bs with
  | nil => intro s hi _ _; exact hi
  | cons b bs ih =>
    obtain ⟨pre, uri, p⟩ := b
    intro s hi hfree ⟨hnd, hp, hx⟩
    simp only [List.map_cons, List.nodup_cons] at hnd
    have hpre := hfree _ (by simp : (pre, uri, p) ∈ (pre, uri, p) :: bs)
    simp only at hpre
    have keep : ∀ q u, s.prefixesToURI q = some u → put s.prefixesToURI pre (some uri) q = some u := by
      intro q u h
      by_cases e : q = pre
      · subst e; rw [hpre] at h; cases h
      · rw [put_ne _ _ e]; exact h
    refine ih (s := bind s pre uri p) ⟨?_, ?_, ?_⟩ ?_ ⟨hnd.2, fun b hb => hp b (by simp [hb]), fun b hb => hx b (by simp [hb])⟩
    · intro p' q h
      cases p with
      | none => exact keep _ _ (hi.packages p' q h)
      | some p =>
        have h' : put s.packages p (some pre) p' = some q := h
        by_cases e : p' = p
        · subst e
          rw [put_same] at h'; cases h'
          have := hp _ (by simp : (pre, uri, some p') ∈ (pre, uri, some p') :: bs) p' rfl
          show put s.prefixesToURI pre (some uri) pre = _
          rw [put_same, this]
        · rw [put_ne _ _ e] at h'
          exact keep _ _ (hi.packages p' q h')
    · intro u q hq
      have hq' : q ∈ put s.uriToPrefixes uri (s.uriToPrefixes uri ++ [pre]) u := hq
      by_cases e : u = uri
      · subst e
        rw [put_same] at hq'
        rcases List.mem_append.1 hq' with h | h
        · exact keep _ _ (hi.uris u q h)
        · simp at h; subst h
          show put s.prefixesToURI q (some u) q = _
          rw [put_same]
      · rw [put_ne _ _ e] at hq'
        exact keep _ _ (hi.uris u q hq')
    · intro u h
      have h' : put s.prefixesToURI pre (some uri) xsiNS = some u := h
      by_cases e : xsiNS = pre
      · rw [← e, put_same] at h'
        have := hx _ (by simp : (pre, uri, p) ∈ (pre, uri, p) :: bs) e.symm
        simp only [Option.some.injEq] at h'
        rw [← h']; exact this
      · rw [put_ne _ _ e] at h'; exact hi.xsi u h'
    · intro b hb
      have : b.1 ≠ pre := fun e => hnd.1 (by rw [← e]; exact List.mem_map_of_mem hb)
      show put s.prefixesToURI pre (some uri) b.1 = none
      rw [put_ne _ _ this]
      exact hfree b (by simp [hb])

theorem init_inv (w : World) : Inv w Enc.init := ⟨by simp [Enc.init], by simp [Enc.init], by simp [Enc.init]⟩

/-- **C42** (partial): if saving terminates, every prefix written for a package is, at the end,
bound to the namespace of that package; so packages with different namespaces have different
prefixes.
Missing: saving may not terminate (`C42_saving_violated`); packages that want the prefix `xsi`. -/
theorem C42_unique_partial (w : World) (fuel : Nat) (bs : List (String × String × Option Nat)) (us : List Use)
    (s : Enc) (used : List (String × String)) (hb : GoodMap w bs) (hx : FreeXsi w us)
    (h : save w fuel (bindAll Enc.init bs) us = some (s, used)) :
    (∀ p q, s.packages p = some q → s.prefixesToURI q = some (w.nsURI p)) ∧
    (∀ p p' q, s.packages p = some q → s.packages p' = some q → w.nsURI p = w.nsURI p') := by
  have hi := (save_inv us h (bindAll_inv bs (init_inv w) (fun _ _ => rfl) hb) hx).1
  refine ⟨hi.packages, fun p p' q h1 h2 => ?_⟩
  have e1 := hi.packages p q h1
  have e2 := hi.packages p' q h2
  rw [e1] at e2
  simpa using e2

/-- **C53** (partial): every prefix written is declared in the root element, for the namespace it
stands for.
Missing: documents that contain a nil written by `saveNil` but nothing else that uses `xsi`
(`C53_nil_violated`). -/
theorem C53_declared_partial (w : World) (fuel : Nat) (bs : List (String × String × Option Nat)) (us : List Use)
    (s : Enc) (used : List (String × String)) (hb : GoodMap w bs) (hx : FreeXsi w us)
    (hn : Use.saveNil ∈ us → Use.typeAttribute ∈ us ∨ Use.nilItem ∈ us)
    (h : save w fuel (bindAll Enc.init bs) us = some (s, used)) :
    ∀ x ∈ used, s.prefixesToURI x.1 = some x.2 := by
  obtain ⟨-, -, h1, h2⟩ := save_inv us h (bindAll_inv bs (init_inv w) (fun _ _ => rfl) hb) hx
  intro x hxu
  rcases h1 x hxu with h | ⟨h, rfl⟩
  · exact h
  · exact h2 (hn h)

/-! ### Termination -/

/-- where a bound prefix comes from -/
structure From (w : World) (seen : List Nat) (s : Enc) : Prop where
  bound : ∀ q u, s.prefixesToURI q = some u → q = xsiNS ∨
    ∃ p ∈ seen, s.packages p = some q ∧ (q = w.nsPrefix p ∨ q = numbered (w.nsPrefix p) 1)

/-- Packages used, none of which wants a prefix that ends with `_1` or is `xsi`, and no three of
which want the same one. -/
def AtMostTwo (w : World) (ps : List Nat) : Prop :=
  (∀ p ∈ ps, w.nsPrefix p ≠ xsiNS ∧ ∀ x, w.nsPrefix p ≠ numbered x 1) ∧
  ∀ p1 ∈ ps, ∀ p2 ∈ ps, ∀ p3 ∈ ps, w.nsPrefix p1 = w.nsPrefix p2 → w.nsPrefix p2 = w.nsPrefix p3 →
    p1 = p2 ∨ p2 = p3 ∨ p1 = p3

theorem getPrefix_terminates {w : World} {ps seen : List Nat} {s : Enc} {p : Nat} (fuel : Nat)
    (hs : ∀ x ∈ seen, x ∈ ps) (hp : p ∈ ps) (h2 : AtMostTwo w ps) (hf : From w seen s) :
    ∃ s' q, getPrefix w (fuel + 1) s p false = some (s', q) := by
  unfold getPrefix
  cases hpk : s.packages p with
  | some q => exact ⟨_, _, rfl⟩
  | none =>
    simp only
    cases hfind : (s.uriToPrefixes (w.nsURI p)).find? (fun q => !false || q ≠ "") with
    | some q => exact ⟨_, _, rfl⟩
    | none =>
      simp only [Bool.false_eq_true, and_false, if_false]
      cases hq : s.prefixesToURI (w.nsPrefix p) with
      | none => exact ⟨_, _, rfl⟩
      | some u =>
        simp only
        by_cases hu : u ≠ w.nsURI p
        · rw [if_pos hu]
          have hfree : s.prefixesToURI (numbered (w.nsPrefix p) 1) = none := by
            cases hn : s.prefixesToURI (numbered (w.nsPrefix p) 1) with
            | none => rfl
            | some u2 =>
              exfalso
              rcases hf.bound _ _ hn with h | ⟨p2, hp2, hk2, hc2⟩
              · exact numbered_ne_xsi _ h
              · rcases hc2 with hc2 | hc2
                · exact (h2.1 p2 (hs _ hp2)).2 _ hc2.symm
                · have e2 := numbered_inj hc2
                  rcases hf.bound _ _ hq with h | ⟨p1, hp1, hk1, hc1⟩
                  · exact (h2.1 p hp).1 h
                  · rcases hc1 with hc1 | hc1
                    · have := h2.2 p hp p1 (hs _ hp1) p2 (hs _ hp2) hc1 (by rw [← hc1, e2])
                      rcases this with rfl | rfl | rfl
                      · rw [hpk] at hk1; cases hk1
                      · rw [hk1] at hk2
                        simp only [Option.some.injEq] at hk2
                        exact (h2.1 p hp).2 _ hk2
                      · rw [hpk] at hk2; cases hk2
                    · exact (h2.1 p hp).2 _ hc1
          rw [hfree]
          exact ⟨_, _, rfl⟩
        · rw [if_neg hu]; exact ⟨_, _, rfl⟩

theorem from_getPrefix {w : World} {seen : List Nat} {s s' : Enc} {p : Nat} {fuel : Nat} {q : String}
    (hf : From w seen s) (h : getPrefix w fuel s p false = some (s', q)) : From w (p :: seen) s' := by
  rcases getPrefix_cases h with ⟨rfl, e⟩ | ⟨e, hq, rfl⟩ | ⟨e, hq, hform, rfl⟩
  · refine ⟨fun q' u hb => ?_⟩
    rcases hf.bound q' u hb with h | ⟨p', hp', hk, hc⟩
    · exact .inl h
    · exact .inr ⟨p', by simp [hp'], hk, hc⟩
  · refine ⟨fun q' u hb => ?_⟩
    rcases hf.bound q' u hb with h | ⟨p', hp', hk, hc⟩
    · exact .inl h
    · have : p' ≠ p := by intro e'; subst e'; rw [e] at hk; cases hk
      exact .inr ⟨p', by simp [hp'], by simpa [put, this] using hk, hc⟩
  · simp only [Bool.false_eq_true, and_false, if_false] at hform
    refine ⟨fun q' u hb => ?_⟩
    by_cases e' : q' = q
    · subst e'; exact .inr ⟨p, by simp, by simp [put], hform⟩
    · have hb' : s.prefixesToURI q' = some u := by simpa [put, e'] using hb
      rcases hf.bound q' u hb' with h | ⟨p', hp', hk, hc⟩
      · exact .inl h
      · have : p' ≠ p := by intro e''; subst e''; rw [e] at hk; cases hk
        exact .inr ⟨p', by simp [hp'], by simpa [put, this] using hk, hc⟩

theorem from_xsi {w : World} {seen : List Nat} {s : Enc} (hf : From w seen s) : From w seen (declareXsi s) := by
  refine ⟨fun q u hb => ?_⟩
  by_cases e : q = xsiNS
  · exact .inl e
  · exact hf.bound q u (by simpa [declareXsi, put, e] using hb)

/-- the packages whose names are written -/
def packagesOf : List Use → List Nat
  | [] => []
  | .name p _ :: us => p :: packagesOf us
  | _ :: us => packagesOf us

theorem save_terminates {w : World} {ps : List Nat} (fuel : Nat) (h2 : AtMostTwo w ps) (us : List Use)
    (hm : ∀ p, Use.name p true ∉ us) : ∀ (seen : List Nat) (s : Enc), (∀ x ∈ seen, x ∈ ps) → (∀ x ∈ packagesOf us, x ∈ ps) →
    From w seen s → ∃ r, save w (fuel + 1) s us = some r := by
  induction us with
  | nil => intro seen s _ _ _; exact ⟨_, rfl⟩
  | cons u us ih =>
    intro seen s hs hps hf
    have hm' : ∀ p, Use.name p true ∉ us := fun p h => hm p (by simp [h])
    cases u with
    | name p must =>
      cases must with
      | true => exact absurd (by simp) (hm p)
      | false =>
        obtain ⟨s1, q, h1⟩ := getPrefix_terminates fuel hs (hps p (by simp [packagesOf])) h2 hf
        obtain ⟨r, hr⟩ := ih hm' (p :: seen) s1 (by
          intro x hx
          rcases List.mem_cons.1 hx with rfl | hx
          · exact hps x (by simp [packagesOf])
          · exact hs x hx) (fun x hx => hps x (by simp [packagesOf, hx])) (from_getPrefix hf h1)
        exact ⟨_, by simp only [save, use, h1, Option.map_some, Option.bind_some, hr]; rfl⟩
    | typeAttribute =>
      obtain ⟨r, hr⟩ := ih hm' seen (declareXsi s) hs hps (from_xsi hf)
      exact ⟨_, by simp only [save, use, Option.bind_some, hr, Option.map_some]; rfl⟩
    | nilItem =>
      obtain ⟨r, hr⟩ := ih hm' seen (declareXsi s) hs hps (from_xsi hf)
      exact ⟨_, by simp only [save, use, Option.bind_some, hr, Option.map_some]; rfl⟩
    | saveNil =>
      obtain ⟨r, hr⟩ := ih hm' seen s hs hps hf
      exact ⟨_, by simp only [save, use, Option.bind_some, hr, Option.map_some]; rfl⟩

/-- **C42** (partial): saving terminates when at most two packages want the same prefix.
Missing: more than two (`C42_saving_violated`), and preferred prefixes ending with `_1`. -/
theorem C42_saving_terminates_partial (w : World) (fuel : Nat) (us : List Use) (hm : ∀ p, Use.name p true ∉ us)
    (h2 : AtMostTwo w (packagesOf us)) : ∃ r, save w (fuel + 1) Enc.init us = some r :=
  save_terminates fuel h2 us hm [] Enc.init (by simp) (fun _ h => h) ⟨by simp [Enc.init]⟩

/-- packages 0 and 1 want the same prefix, 2 another one -/
def sampleWorld : World := ⟨fun n => "u" ++ toString n, fun n => if n < 2 then "p" else "q"⟩

example : (save sampleWorld 1 Enc.init [.name 0 false, .name 2 false, .typeAttribute, .name 1 false, .name 0 false]).map (·.2) =
    some [("p", "u0"), ("q", "u2"), (xsiNS, xsiURI), ("p_1", "u1"), ("p", "u0")] := by decide

example : AtMostTwo sampleWorld (packagesOf [.name 0 false, .name 2 false, .typeAttribute, .name 1 false, .name 0 false]) := by
  refine ⟨?_, by decide⟩
  have hq : ∀ q : String, q.toList.getLast? ≠ some '1' → ∀ x, q ≠ numbered x 1 := by
    intro q hq x e
    apply hq
    rw [e, numbered_toList]; simp
  intro p hp
  simp [packagesOf] at hp
  rcases hp with rfl | rfl | rfl | rfl <;>
    exact ⟨by decide, hq _ (by decide)⟩

theorem save_append (w : World) (fuel : Nat) (us vs : List Use) : ∀ s, save w fuel s (us ++ vs) =
    (save w fuel s us).bind fun r => (save w fuel r.1 vs).map fun r' => (r'.1, r.2 ++ r'.2) := by
  induction us with
  | nil => intro s; simp [save]
  | cons u us ih =>
    intro s
    simp only [List.cons_append, save]
    cases use w fuel s u with
    | none => rfl
    | some r =>
      simp only [Option.bind_some, ih]
      cases save w fuel r.1 us with
      | none => rfl
      | some r' => simp [Option.map_map, Function.comp_def]

/-- **C42** is violated: with three packages that want the same prefix, saving never ends. -/
theorem C42_saving_violated :
    ∃ w : World, (w.nsURI 0 ≠ w.nsURI 1 ∧ w.nsURI 1 ≠ w.nsURI 2 ∧ w.nsURI 0 ≠ w.nsURI 2) ∧
      ∀ fuel, save w fuel Enc.init [.name 0 false, .name 1 false, .name 2 false] = none := by
  refine ⟨⟨fun n => "u" ++ toString n, fun _ => "p"⟩, by decide, ?_⟩
  intro fuel
  cases fuel with
  | zero => decide
  | succ n =>
    have h3 : ∀ s : Enc, s.packages 2 = none → s.uriToPrefixes "u2" = [] → s.prefixesToURI "p" = some "u0" →
        (s.prefixesToURI (numbered "p" 1)).isSome →
        getPrefix ⟨fun n => "u" ++ toString n, fun _ => "p"⟩ (n + 1) s 2 false = none := by
      intro s h1 h2 h3 h4
      have e2 : "u" ++ toString 2 = "u2" := by decide
      simp only [getPrefix, h1, e2, h2, List.find?_nil, Bool.false_eq_true, and_false, if_false, h3, h4, nextIndex_true]
      rw [if_pos (by decide)]
      rfl
    have h12 : ∃ s x, save ⟨fun n => "u" ++ toString n, fun _ => "p"⟩ (n + 1) Enc.init [.name 0 false, .name 1 false] = some (s, x) ∧
        s.packages 2 = none ∧ s.uriToPrefixes "u2" = [] ∧ s.prefixesToURI "p" = some "u0" ∧
        (s.prefixesToURI (numbered "p" 1)).isSome := ⟨_, _, rfl, by decide⟩
    obtain ⟨s, x, h1, h2, h4, h5, h6⟩ := h12
    have := h3 s h2 h4 h5 h6
    rw [show [Use.name 0 false, .name 1 false, .name 2 false] = [.name 0 false, .name 1 false] ++ [.name 2 false] from rfl,
      save_append, h1]
    simp only [save, use, this, Option.bind_some, Option.map_none, Option.bind_none]

/-- **C53** is violated: a document with a nil element only uses `xsi` without declaring it. -/
theorem C53_nil_violated :
    ∃ (w : World) (us : List Use) (s : Enc) (used : List (String × String)), save w 1 Enc.init us = some (s, used) ∧ FreeXsi w us ∧
      (xsiNS, xsiURI) ∈ used ∧ s.prefixesToURI xsiNS = none :=
  ⟨sampleWorld, [.name 0 false, .saveNil], _, _, rfl, by
    intro p m hm e
    simp at hm
    obtain ⟨rfl, rfl⟩ := hm
    revert e; decide, by decide⟩

/-! ## Loading -/

theorem mapping_cases {fuel : Nat} {m m' : Map String} {pre uri q : String}
    (h : startPrefixMapping fuel m pre uri = some (m', q)) :
    m q = none ∧ m' = put m q (some uri) ∧ (q = pre ∨ q = numbered pre 1 ∧ (m pre).isSome) := by
  simp only [startPrefixMapping, Option.map_eq_some_iff, Prod.mk.injEq] at h
  obtain ⟨q', hq, rfl, rfl⟩ := h
  split at hq
  · rename_i hs
    simp only [Option.map_eq_some_iff] at hq
    obtain ⟨i, hi, rfl⟩ := hq
    obtain ⟨hb, rfl⟩ := nextIndex_some hi
    exact ⟨by simpa using hb, rfl, .inr ⟨rfl, hs⟩⟩
  · rename_i hs
    simp only [Option.some.injEq] at hq
    subst hq
    exact ⟨by simpa using hs, rfl, .inl rfl⟩

theorem load_inv {fuel : Nat} (ds : List (String × String)) : ∀ {m m' : Map String} {names : List String},
    load fuel m ds = some (m', names) →
    (∀ q u, m q = some u → m' q = some u) ∧ names.length = ds.length ∧ names.Nodup ∧ (∀ q ∈ names, m q = none) ∧
    (∀ i : Nat, ∀ q d, names[i]? = some q → ds[i]? = some d → m' q = some d.2 ∧ (q = d.1 ∨ q = numbered d.1 1)) := by
  induction ds with
  | nil =>
    intro m m' names h
    simp only [load, Option.some.injEq, Prod.mk.injEq] at h
    obtain ⟨rfl, rfl⟩ := h
    exact ⟨fun _ _ h => h, rfl, List.nodup_nil, by simp, by simp⟩
  | cons d ds ih =>
    intro m m' names h
    simp only [load, Option.bind_eq_some_iff, Option.map_eq_some_iff, Prod.mk.injEq] at h
    obtain ⟨⟨m1, q1⟩, h1, ⟨m2, names2⟩, h2, rfl, rfl⟩ := h
    obtain ⟨hfree, hm1, hform⟩ := mapping_cases h1
    obtain ⟨k, hl, hnd, hnew, hrec⟩ := ih h2
    simp only at k hnew hrec
    have k1 : ∀ q u, m q = some u → m1 q = some u := by
      intro q u hq
      have : q ≠ q1 := by intro e; subst e; rw [hfree] at hq; cases hq
      rw [hm1, put_ne _ _ this]; exact hq
    have hq1 : m1 q1 = some d.2 := by rw [hm1, put_same]
    refine ⟨fun q u hq => k _ _ (k1 _ _ hq), by simp [hl], ?_, ?_, ?_⟩
    · rw [List.nodup_cons]
      refine ⟨fun hmem => ?_, hnd⟩
      have := hnew _ hmem
      rw [hq1] at this; cases this
    · intro q hq
      rcases List.mem_cons.1 hq with rfl | hq
      · exact hfree
      · cases hmq : m q with
        | none => rfl
        | some u => have := hnew q hq; rw [k1 _ _ hmq] at this; cases this
    · intro i q d' hi hd
      cases i with
      | zero =>
        simp only [List.getElem?_cons_zero, Option.some.injEq] at hi hd
        subst hi; subst hd
        refine ⟨k _ _ hq1, ?_⟩
        rcases hform with h | ⟨h, -⟩
        · exact .inl h
        · exact .inr h
      | succ i => exact hrec i q d' (by simpa using hi) (by simpa using hd)

/-- **C42** (partial): if the declarations of a document can be read, each of them is recorded
under a name of its own, the prefix or the prefix with a number, and no later one overwrites it.
Missing: reading them may not terminate (`C42_loading_violated`). -/
theorem C42_recorded_partial (fuel : Nat) (ds : List (String × String)) (m : Map String) (names : List String)
    (h : load fuel (fun _ => none) ds = some (m, names)) :
    names.length = ds.length ∧ names.Nodup ∧
    ∀ i : Nat, ∀ q d, names[i]? = some q → ds[i]? = some d → m q = some d.2 ∧ (q = d.1 ∨ q = numbered d.1 1) := by
  obtain ⟨-, h1, h2, -, h3⟩ := load_inv ds h
  exact ⟨h1, h2, h3⟩

/-- **C42** (partial): reading the declarations of a document terminates when no prefix is declared
more than twice.
Missing: prefixes declared three times (`C42_loading_violated`), prefixes ending with `_1`. -/
theorem C42_loading_terminates_partial (fuel : Nat) (ds : List (String × String))
    (h1 : ∀ d ∈ ds, ∀ x, d.1 ≠ numbered x 1) (h2 : ∀ p, (ds.map (·.1)).count p ≤ 2) :
    ∃ r, load (fuel + 1) (fun _ => none) ds = some r := by
  have key : ∀ (ds : List (String × String)) (done : List String) (m : Map String),
      (∀ d ∈ ds, ∀ x, d.1 ≠ numbered x 1) → (∀ p ∈ done, ∀ x, p ≠ numbered x 1) →
      (∀ p, done.count p + (ds.map (·.1)).count p ≤ 2) →
      (∀ q, (m q).isSome → q ∈ done ∨ ∃ x, q = numbered x 1 ∧ 2 ≤ done.count x) →
      ∃ r, load (fuel + 1) m ds = some r := by
    intro ds
    induction ds with
    | nil => intro done m _ _ _ _; exact ⟨_, rfl⟩
    | cons d ds ih =>
      intro done m h1 hd h2 hb
      have hone : ∃ m1 q, startPrefixMapping (fuel + 1) m d.1 d.2 = some (m1, q) := by
        simp only [startPrefixMapping]
        by_cases hs : (m d.1).isSome
        · rw [if_pos hs]
          have hfree : (m (numbered d.1 1)).isSome = false := by
            cases hn : (m (numbered d.1 1)).isSome with
            | false => rfl
            | true =>
              exfalso
              rcases hb _ hn with h | ⟨x, hx, hc⟩
              · exact hd _ h _ rfl
              · have := numbered_inj hx
                subst this
                have := h2 d.1
                simp only [List.map_cons, List.count_cons_self] at this
                omega
          rw [hfree]
          exact ⟨_, _, rfl⟩
        · rw [if_neg hs]; exact ⟨_, _, rfl⟩
      obtain ⟨m1, q, he⟩ := hone
      obtain ⟨hfree, hm1, hform⟩ := mapping_cases he
      obtain ⟨r, hr⟩ := ih (d.1 :: done) m1 (fun x hx => h1 x (by simp [hx])) (by
          intro p hp
          rcases List.mem_cons.1 hp with rfl | hp
          · exact h1 d (by simp)
          · exact hd p hp) (by
          intro p
          have := h2 p
          simp only [List.map_cons, List.count_cons] at this ⊢
          omega) (by
          intro q' hq'
          by_cases e : q' = q
          · rcases hform with hf | ⟨hf, hpre⟩
            · left; rw [e, hf]; simp
            · right
              refine ⟨d.1, by rw [e, hf], ?_⟩
              rcases hb _ hpre with h | ⟨x, hx, -⟩
              · have := List.count_pos_iff.2 h
                rw [List.count_cons_self]; omega
              · exact absurd hx (h1 d (by simp) x)
          · rw [hm1, put_ne _ _ e] at hq'
            rcases hb _ hq' with h | ⟨x, hx, hc⟩
            · exact .inl (by simp [h])
            · exact .inr ⟨x, hx, by rw [List.count_cons]; omega⟩)
      exact ⟨_, by simp only [load, he, Option.bind_some, hr, Option.map_some]; rfl⟩
  exact key ds [] (fun _ => none) h1 (by simp) (by simpa using h2) (by simp)

example : (load 1 (fun _ => none) [("a", "1"), ("b", "2"), ("a", "3")]).map (·.2) = some ["a", "b", "a_1"] := by decide

theorem load_append (fuel : Nat) (us vs : List (String × String)) : ∀ m, load fuel m (us ++ vs) =
    (load fuel m us).bind fun r => (load fuel r.1 vs).map fun r' => (r'.1, r.2 ++ r'.2) := by
  induction us with
  | nil => intro s; simp [load]
  | cons u us ih =>
    intro s
    simp only [List.cons_append, load]
    cases startPrefixMapping fuel s u.1 u.2 with
    | none => rfl
    | some r =>
      simp only [Option.bind_some, ih]
      cases load fuel r.1 us with
      | none => rfl
      | some r' => simp [Option.map_map, Function.comp_def]

/-- **C42** is violated: a document that declares a prefix in three elements is never read. -/
theorem C42_loading_violated (fuel : Nat) : load fuel (fun _ => none) [("a", "1"), ("a", "1"), ("a", "1")] = none := by
  have h3 : ∀ (n : Nat) (m : Map String), (m "a").isSome → (m (numbered "a" 1)).isSome →
      startPrefixMapping n m "a" "1" = none := by
    intro n m h1 h2
    simp only [startPrefixMapping, h1, h2, if_true, nextIndex_true]
    rfl
  cases fuel with
  | zero => decide
  | succ n =>
    obtain ⟨m, x, h1, h2, h4⟩ : ∃ m x, load (n + 1) (fun _ => none) [("a", "1"), ("a", "1")] = some (m, x) ∧
        (m "a").isSome ∧ (m (numbered "a" 1)).isSome := ⟨_, _, rfl, by decide⟩
    have := h3 (n + 1) m h2 h4
    rw [show [("a", "1"), ("a", "1"), ("a", "1")] = [("a", "1"), ("a", "1")] ++ [("a", "1")] from rfl,
      load_append, h1]
    simp [load, this]

end Verif.XMLPrefix
