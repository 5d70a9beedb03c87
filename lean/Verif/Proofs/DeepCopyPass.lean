import Verif.Proofs.DeepCopyRefs

/-!
# Proofs about copies: the loops of the second pass
-/

namespace Verif.DeepCopy

variable {M : Meta} {w0 w1 w w' : World} {S : Nat → Prop} {D B : Nat → Nat → Prop}

/-- the references of `D` are copied -/
structure Inv (M : Meta) (w0 w1 w : World) (D B : Nat → Nat → Prop) : Prop where
  str : Str M w0 w1 w
  abs : Abs M w0 w1 (values w) (fun y f => w.slot y f ≠ .none) D B

theorem Inv.begin (h : Inv M w0 w1 w D B) {B' : Nat → Nat → Prop} (hb : ∀ x f : Nat, B x f → B' x f) : Inv M w0 w1 w D B' :=
  ⟨h.str, h.abs.nodup, h.abs.sub, h.abs.sym, h.abs.set, fun x y f h1 h2 h3 h4 => h.abs.uni x y f h1 h2 h3 (fun e => h4 (hb x f e)), h.abs.done⟩

theorem Inv.finish (C : Ctx M w0 w1 S) (h : Inv M w0 w1 w D B) {x c f : Nat} (hx : w1.objects x = some c) (hv : values w c f = want M w0 w1 x f)
    (hz : isSet M w0 x f = true → (M.feature f).many = true ∨ want M w0 w1 x f ≠ [] → w.slot c f ≠ .none) : Inv M w0 w1 w (fun x' f' => D x' f' ∨ (x' = x ∧ f' = f)) B := by
  refine ⟨h.str, h.abs.nodup, h.abs.sub, h.abs.sym, h.abs.set, h.abs.uni, ?_⟩
  intro x' y' f' hxy hcf hd
  rcases hd with hd | ⟨rfl, rfl⟩
  · exact h.abs.done x' y' f' hxy hcf hd
  · rw [hx] at hxy
    cases hxy
    exact ⟨hv, hz⟩

/-- the value `Z` after a change -/
theorem Change.setIff {y f : Nat} {V : List Nat} (h : Change M w0 w1 w w' y f V) (y' f' : Nat) : w'.slot y' f' ≠ .none ↔ w.slot y' f' ≠ .none ∨ (y' = y ∧ f' = f) := by
  by_cases he : y' = y ∧ f' = f
  · obtain ⟨rfl, rfl⟩ := he
    simp [h.set]
  · rw [h.slots y' f' he]
    simp [he]

theorem Inv.changed (C : Ctx M w0 w1 S) (h : Inv M w0 w1 w D B) {x c f : Nat} {V : List Nat} (hx : w1.objects x = some c) (hc : Change M w0 w1 w w' c f V)
    (hn : V.Nodup) (hs : ∀ v ∈ V, v ∈ want M w0 w1 x f) (ho : (M.feature f).opposite.isSome = true → ∀ v : Nat, v ∈ V ↔ v ∈ values w c f)
    (hD : ¬ D x f) (hB : B x f) (hset : w0.slot x f ≠ .none) : Inv M w0 w1 w' D B := by
  refine ⟨hc.str, h.abs.change C hx ?_ ?_ ?_ hD hB hset ?_ ?_⟩
  · rw [hc.val]; exact hn
  · rw [hc.val]; exact hs
  · rw [hc.val]; exact ho
  · intro y' f' h1 h2 h3
    exact hc.other y' f' h1 h2 h3
  · intro y' f'
    exact hc.setIff y' f'

/-- the other end has no value before -/
theorem Inv.one (C : Ctx M w0 w1 S) (h : Inv M w0 w1 w D B) {x c f e e' g : Nat} (hx : w1.objects x = some c) (he : w1.objects e = some e') (hf : Cross M f)
    (ho : (M.feature f).opposite = some g) (hev : e ∈ values w0 x f) (hn : e' ∉ values w c f) (hm : (M.feature g).many = false) : values w e' g = [] := by
  rw [List.eq_nil_iff_forall_not_mem]
  intro v hv
  have hg := hf.opp C.wf ho
  have h1 := h.abs.sub e e' g v he hg hv
  have hwant : e' ∈ want M w0 w1 x f := by
    simp only [want, List.mem_filterMap]
    exact ⟨e, hev, by simp [img, he]⟩
  obtain ⟨e1, he1, -, -, hcw⟩ := C.want_opp hx hf ho hwant
  have := C.inj e1 e e' he1 he
  subst this
  have := C.want_single (C.mem he).1 hg hm h1 hcw
  subst this
  exact hn (h.abs.sym e1 e' g x v f he hx hg (C.wf.opp f g ho).1 hv)

theorem Inv.insert (C : Ctx M w0 w1 S) (h : Inv M w0 w1 w D B) {x c f e e' g : Nat} {V : List Nat} (hx : w1.objects x = some c) (he : w1.objects e = some e') (hf : Cross M f)
    (ho : (M.feature f).opposite = some g) (hev : e ∈ values w0 x f) (hn : e' ∉ values w c f) (hc : Change M w0 w1 w w' c f V) (hp : V.Perm (e' :: values w c f)) :
    Inv M w0 w1 (inverseAdd M w' c f e') D B ∧ values (inverseAdd M w' c f e') c f = V ∧ (inverseAdd M w' c f e').slot c f = w'.slot c f := by
  have hg := hf.opp C.wf ho
  have hgf := (C.wf.opp f g ho).2
  obtain ⟨-, hge, hlt⟩ := C.mem he
  obtain ⟨-, hgec, hltc⟩ := C.mem hx
  have heg : values w' e' g = values w e' g := hc.other e' g hge hlt (fun e => hgf e.2)
  have h2 := change_inverse hc.str (c := c) hge hlt hf hg ho (fun hm => by rw [heg]; exact h.one C hx he hf ho hev hn hm)
  have hcf : values (inverseAdd M w' c f e') c f = V := by
    rw [h2.other c f hgec hltc (fun e => hgf e.2.symm), hc.val]
  refine ⟨⟨h2.str, h.abs.link C hx he hf ho hev hn ?_ ?_ ?_ ?_⟩, hcf, h2.slots c f (fun e => hgf e.2.symm)⟩
  · rw [hcf]; exact hp
  · rw [h2.val, heg]
  · intro y' f' h3 h4 h5 h6
    rw [h2.other y' f' h3 h4 h6, hc.other y' f' h3 h4 h5]
  · intro y' f'
    rw [h2.setIff, hc.setIff]
    constructor
    · rintro ((h | h) | h)
      · exact .inl h
      · exact .inr (.inl h)
      · exact .inr (.inr h)
    · rintro (h | h | h)
      · exact .inl (.inl h)
      · exact .inl (.inr h)
      · exact .inr h

theorem Inv.assign (C : Ctx M w0 w1 S) (h : Inv M w0 w1 w D B) {x c f e e' g : Nat} (hx : w1.objects x = some c) (he : w1.objects e = some e') (hf : Cross M f)
    (hm : (M.feature f).many = false) (ho : (M.feature f).opposite = some g) (hev : e ∈ values w0 x f) (hn : values w c f = []) :
    Inv M w0 w1 (setSlot (inverseAdd M w c f e') c f (.obj e')) D B ∧ values (setSlot (inverseAdd M w c f e') c f (.obj e')) c f = [e'] := by
  have hg := hf.opp C.wf ho
  have hgf := (C.wf.opp f g ho).2
  obtain ⟨-, hge, hlt⟩ := C.mem he
  obtain ⟨-, hgec, hltc⟩ := C.mem hx
  have hn' : e' ∉ values w c f := by simp [hn]
  have h2 := change_inverse h.str (c := c) hge hlt hf hg ho (fun hm => h.one C hx he hf ho hev hn' hm)
  have h3 := change_slot h2.str (y := c) (f := f) e' hgec hf hm
  refine ⟨⟨h3.str, h.abs.link C hx he hf ho hev hn' ?_ ?_ ?_ ?_⟩, h3.val⟩
  · rw [h3.val, hn]
  · rw [h3.other e' g hge hlt (fun e => hgf e.2), h2.val]
  · intro y' f' h4 h5 h6 h7
    rw [h3.other y' f' h4 h5 h6, h2.other y' f' h4 h5 h7]
  · intro y' f'
    rw [h3.setIff, h2.setIff]
    constructor
    · rintro ((h | h) | h)
      · exact .inl h
      · exact .inr (.inr h)
      · exact .inr (.inl h)
    · rintro (h | h | h)
      · exact .inl (.inl h)
      · exact .inr h
      · exact .inl (.inr h)

theorem insertIdx_length (P R : List Nat) (v : Nat) : (P ++ R).insertIdx P.length v = P ++ v :: R := by
  induction P with
  | nil => simp
  | cons a P ih => simp [ih]

/-- one element of the list -/
theorem copyElement_step (C : Ctx M w0 w1 S) (h : Inv M w0 w1 w D B) {x c f l e : Nat} {pre post rest : List Nat} (hx : w1.objects x = some c) (hf : Cross M f)
    (hD : ¬ D x f) (hB : B x f) (hl : w.slot c f = .list l) (hv : values w0 x f = pre ++ e :: post) (hi : (w.list l).items = pre.filterMap (img M w1 f) ++ rest)
    (hr : (M.feature f).opposite = none → rest = []) :
    ∃ w' rest', copyElement M c f l (w, (pre.filterMap (img M w1 f)).length) e = some (w', ((pre ++ [e]).filterMap (img M w1 f)).length) ∧
      Inv M w0 w1 w' D B ∧ w'.slot c f = .list l ∧ (w'.list l).items = (pre ++ [e]).filterMap (img M w1 f) ++ rest' ∧ ((M.feature f).opposite = none → rest' = []) := by
  obtain ⟨hS, hge, hlt⟩ := C.mem hx
  have hval : values w c f = (w.list l).items := by simp [values, hl]
  have hnd : (values w c f).Nodup := h.abs.nodup x c f hx hf
  have hsub : ∀ v ∈ values w c f, v ∈ want M w0 w1 x f := fun v hv => h.abs.sub x c f v hx hf hv
  have hset : w0.slot x f ≠ .none := by
    intro hs
    simp [values, hs] at hv
  have hobj : w.objects = w1.objects := h.str.objects
  have hev : e ∈ values w0 x f := by simp [hv]
  have hwn := C.want_nodup hS hf
  have hwv : ∀ v : Nat, img M w1 f e = some v → v ∈ want M w0 w1 x f ∧ v ∉ pre.filterMap (img M w1 f) := by
    intro v hiv
    have : want M w0 w1 x f = pre.filterMap (img M w1 f) ++ v :: post.filterMap (img M w1 f) := by
      simp [want, hv, hiv]
    rw [this] at hwn ⊢
    refine ⟨by simp, ?_⟩
    intro hm
    rw [List.nodup_append] at hwn
    exact hwn.2.2 v hm v (by simp) rfl
  generalize hP : pre.filterMap (img M w1 f) = P at *
  have hitems : ∀ V : List Nat, ((setItems w l V).list l).items = V := by intro V; simp [setItems]
  have hslots : ∀ V : List Nat, (setItems w l V).slot c f = .list l := by intro V; exact hl
  cases hop : (M.feature f).opposite with
  | none =>
    have hrest := hr hop
    subst hrest
    rw [List.append_nil] at hi
    -- without opposite
    have hval' : values w c f = P := by rw [hval, hi]
    have main : ∀ v : Nat, img M w1 f e = some v → ∃ w' : World, (insert M w c f l P.length v).map (fun w => (w, P.length + 1)) = some (w', ((pre ++ [e]).filterMap (img M w1 f)).length) ∧
        Inv M w0 w1 w' D B ∧ w'.slot c f = .list l ∧ (w'.list l).items = (pre ++ [e]).filterMap (img M w1 f) := by
      intro v hiv
      obtain ⟨h1, h2⟩ := hwv v hiv
      have hpe : (pre ++ [e]).filterMap (img M w1 f) = P ++ [v] := by simp [hP, hiv]
      have hins : P.insertIdx P.length v = P ++ [v] := by
        have := insertIdx_length P [] v
        simpa using this
      refine ⟨setItems w l (P ++ [v]), ?_, ?_, hslots _, ?_⟩
      · simp only [insert, hi]
        rw [if_neg (by omega), if_neg h2, hpe, hins]
        simp [inverseAdd, hf.ncont, hop]
      · refine h.changed C hx (change_items h.str _ hge hlt hf hl) ?_ ?_ ?_ hD hB hset
        · rw [List.nodup_append]
          rw [hval'] at hnd
          refine ⟨hnd, by simp, ?_⟩
          intro a ha b hb
          simp at hb
          subst hb
          rintro rfl
          exact h2 ha
        · intro u hu
          rw [List.mem_append, List.mem_singleton] at hu
          rcases hu with hu | rfl
          · exact hsub u (by rw [hval']; exact hu)
          · exact h1
        · simp [hop]
      · rw [hitems, hpe]
    rcases hoe : w1.objects e with _ | e'
    · obtain ⟨w', h1, h2, h3, h4⟩ := main e (by simp [img, hoe, hop])
      refine ⟨w', [], ?_, h2, h3, by simpa using h4, fun _ => rfl⟩
      simp only [copyElement, hobj, hoe, hop]
      simpa using h1
    · obtain ⟨w', h1, h2, h3, h4⟩ := main e' (by simp [img, hoe])
      refine ⟨w', [], ?_, h2, h3, by simpa using h4, fun _ => rfl⟩
      simp only [copyElement, hobj, hoe, hop]
      simpa using h1
  | some g =>
    rcases hoe : w1.objects e with _ | e'
    · have hpe : (pre ++ [e]).filterMap (img M w1 f) = P := by simp [hP, img, hoe, hop]
      refine ⟨w, rest, ?_, h, hl, by rw [hpe]; exact hi, by simp⟩
      simp [copyElement, hobj, hoe, hop, hpe]
    · obtain ⟨h1, h2⟩ := hwv e' (by simp [img, hoe])
      have hpe : (pre ++ [e]).filterMap (img M w1 f) = P ++ [e'] := by simp [hP, img, hoe]
      rw [hpe]
      by_cases hin : e' ∈ (w.list l).items
      · have hinr : e' ∈ rest := by
          rw [hi, List.mem_append] at hin
          exact hin.resolve_left h2
        by_cases hidx : P.length = (w.list l).items.idxOf e'
        · -- already there
          have : rest = e' :: rest.tail := by
            have hg : (w.list l).items[P.length]? = some e' := by
              rw [hidx]
              rw [List.getElem?_eq_getElem (List.idxOf_lt_length_iff.2 hin)]
              simp
            rw [hi, List.getElem?_append_right (Nat.le_refl _)] at hg
            simp only [Nat.sub_self] at hg
            cases rest with
            | nil => simp at hg
            | cons a r => simp at hg; simp [hg]
          refine ⟨w, rest.tail, ?_, h, hl, ?_, by simp⟩
          · simp only [copyElement, hobj, hoe, hop, Option.isSome_some, if_true]
            rw [if_neg (by simp [hin]), if_neg (by simp [hidx])]
            simp
          · rw [hi, this]
            simp
        · have her : (w.list l).items.erase e' = P ++ rest.erase e' := by
            rw [hi, List.erase_append_right _ h2]
          have hrl : 0 < rest.length := List.length_pos_of_mem hinr
          have hperm : (P ++ e' :: rest.erase e').Perm (w.list l).items := by
            rw [hi]
            exact List.Perm.append_left P (List.perm_cons_erase hinr).symm
          refine ⟨setItems w l (P ++ e' :: rest.erase e'), rest.erase e', ?_, ?_, hslots _, by rw [hitems]; simp, by simp⟩
          · simp only [copyElement, hobj, hoe, hop, Option.isSome_some, if_true]
            rw [if_neg (by simp [hin]), if_pos hidx]
            simp only [moveObject]
            rw [if_neg (by simp only [not_or, Decidable.not_not]; refine ⟨hin, ?_⟩; rw [hi, List.length_append]; omega), her, insertIdx_length]
            simp
          · refine h.changed C hx (change_items h.str _ hge hlt hf hl) ?_ ?_ ?_ hD hB hset
            · rw [hperm.nodup_iff, ← hval]; exact hnd
            · intro u hu
              rw [hperm.mem_iff, ← hval] at hu
              exact hsub u hu
            · intro _ v
              rw [hperm.mem_iff, ← hval]
      · have hc := change_items h.str (P ++ e' :: rest) hge hlt hf hl
        obtain ⟨h3, h4, h5⟩ := h.insert C hx hoe hf hop hev (by rw [hval]; exact hin) hc (by rw [hval, hi]; exact List.perm_middle)
        have h6 : (inverseAdd M (setItems w l (P ++ e' :: rest)) c f e').slot c f = .list l := h5.trans (hslots _)
        refine ⟨_, rest, ?_, h3, h6, ?_, by simp⟩
        · simp only [copyElement, hobj, hoe, hop, Option.isSome_some, if_true]
          rw [if_pos hin]
          simp only [Verif.DeepCopy.insert]
          rw [if_neg (by rw [hi, List.length_append]; omega), if_neg hin, hi, insertIdx_length]
          simp
        · rw [values, h6] at h4
          simp only at h4
          rw [h4]
          simp

theorem copyElements (C : Ctx M w0 w1 S) {x c f l : Nat} (hx : w1.objects x = some c) (hf : Cross M f)
    (hD : ¬ D x f) (hB : B x f) : ∀ (post pre rest : List Nat) (w : World), Inv M w0 w1 w D B → w.slot c f = .list l → values w0 x f = pre ++ post →
      (w.list l).items = pre.filterMap (img M w1 f) ++ rest → ((M.feature f).opposite = none → rest = []) →
    ∃ w' i, post.foldlM (copyElement M c f l) (w, (pre.filterMap (img M w1 f)).length) = some (w', i) ∧ Inv M w0 w1 w' D B ∧ w'.slot c f = .list l ∧ values w' c f = want M w0 w1 x f := by
  intro post
  induction post with
  | nil =>
    intro pre rest w h hl hv hi hr
    refine ⟨w, _, rfl, h, hl, ?_⟩
    simp only [List.append_nil] at hv
    have hval : values w c f = want M w0 w1 x f ++ rest := by
      simp only [values, hl, want] at *
      rw [hi, hv]
    have hnd := h.abs.nodup x c f hx hf
    have hsub := fun v => h.abs.sub x c f v hx hf
    rw [hval] at hnd
    have : rest = [] := by
      rw [List.eq_nil_iff_forall_not_mem]
      intro v hvr
      rw [List.nodup_append] at hnd
      exact hnd.2.2 v (hsub v (by rw [hval]; simp [hvr])) v hvr rfl
    rw [hval, this, List.append_nil]
  | cons e post ih =>
    intro pre rest w h hl hv hi hr
    obtain ⟨w2, rest2, h1, h2, h3, h4, h5⟩ := copyElement_step C h hx hf hD hB hl hv hi hr
    obtain ⟨w', i, h6, h7⟩ := ih (pre ++ [e]) rest2 w2 h2 h3 (by simp [hv]) h4 h5
    refine ⟨w', i, ?_, h7⟩
    rw [List.foldlM_cons, h1]
    exact h6

theorem isSet_slot {o f : Nat} (hc : M.isContainer f = false) (h : isSet M w o f = true) : w.slot o f ≠ .none := by
  intro hs
  simp [isSet, hc, hs] at h

theorem copyReference_step (C : Ctx M w0 w1 S) (h : Inv M w0 w1 w D D) {x c f : Nat} (hx : w1.objects x = some c) (hf : Cross M f) (hD : ¬ D x f) :
    ∃ w', copyReference M x c w f = some w' ∧ Inv M w0 w1 w' (fun x' f' => D x' f' ∨ (x' = x ∧ f' = f)) (fun x' f' => D x' f' ∨ (x' = x ∧ f' = f)) := by
  obtain ⟨hS, hge, hlt⟩ := C.mem hx
  have hxo := C.old x hS
  have hset := isSet_frame C.hv h.str.frame (f := f) hxo
  have hitem := items_frame C.hv h.str.frame (f := f) hxo
  have hslot := h.str.frame.slot x f hxo
  have hb := h.begin (B' := fun x' f' => D x' f' ∨ (x' = x ∧ f' = f)) (fun _ _ => .inl)
  have hobj : w.objects = w1.objects := h.str.objects
  simp only [copyReference, hset]
  by_cases his : isSet M w0 x f = true
  · rw [if_pos his]
    have hs0 := isSet_slot hf.ncer his
    by_cases hm : (M.feature f).many = true
    · rw [if_pos hm]
      obtain ⟨l0, hl0⟩ : ∃ l, w0.slot x f = .list l := by
        rcases C.hv.many x f hxo hm with e | ⟨l, e, -⟩
        · exact absurd e hs0
        · exact ⟨l, e⟩
      have hsource : items w x f = values w0 x f := by
        rw [hitem]
        exact items_eq_values (by simp [hl0])
      rw [hsource]
      -- the list of the copy
      have hget : ∃ wg l, getList M w c f = (wg, l) ∧ Inv M w0 w1 wg D (fun x' f' => D x' f' ∨ (x' = x ∧ f' = f)) ∧ wg.slot c f = .list l ∧ values wg c f = values w c f := by
        rcases h.str.many c f hge hlt hf hm with e | ⟨l, e⟩
        · have hch := change_newList h.str [] (if (M.feature f).isRef then .refs else .values) hge hlt hf hm
          have hv0 : values w c f = [] := by simp [values, e]
          refine ⟨newList w c f ⟨[], if (M.feature f).isRef then .refs else .values⟩, w.nextList, by simp only [getList, e], ?_, by simp [newList], by rw [hch.val, hv0]⟩
          exact hb.changed C hx hch (by simp) (by simp) (by simp [hv0]) hD (.inr ⟨rfl, rfl⟩) hs0
        · exact ⟨w, l, by simp only [getList, e], hb, e, rfl⟩
      obtain ⟨wg, l, hg, hI, hl, hvals⟩ := hget
      rw [hg]
      simp only
      have hval : values wg c f = (wg.list l).items := by simp [values, hl]
      by_cases hnil : values w0 x f = []
      · rw [if_pos hnil]
        have hw : want M w0 w1 x f = [] := by simp [want, hnil]
        have hv0 : values wg c f = [] := by
          rw [List.eq_nil_iff_forall_not_mem]
          intro v hv
          have := hI.abs.sub x c f v hx hf hv
          rw [hw] at this
          simp at this
        have hcl : clear M wg c f l = setItems wg l [] := by
          simp only [clear]
          rw [← hval, hv0]
          cases (M.feature f).opposite <;> rfl
        rw [hcl]
        have hch := change_items hI.str [] hge hlt hf hl
        have := hI.changed C hx hch (by simp) (by simp) (by simp [hv0]) hD (.inr ⟨rfl, rfl⟩) hs0
        refine ⟨_, rfl, this.finish C hx ?_ ?_⟩
        · rw [hw, hch.val]
        · intro _ _
          exact hch.set
      · rw [if_neg hnil]
        have hr : (M.feature f).opposite = none → (wg.list l).items = [] := by
          intro ho
          rw [← hval, hvals]
          exact h.abs.uni x c f hx hf ho hD
        obtain ⟨w', i, h1, h2, h3, h4⟩ := copyElements (B := fun x' f' => D x' f' ∨ (x' = x ∧ f' = f)) C hx hf hD (.inr ⟨rfl, rfl⟩) (values w0 x f) [] (wg.list l).items wg hI hl (by simp) (by simp) hr
        simp only [List.filterMap_nil, List.length_nil] at h1
        rw [h1]
        refine ⟨w', rfl, h2.finish C hx h4 ?_⟩
        intro _ _
        simp [h3]
    · rw [if_neg hm]
      have hm' : (M.feature f).many = false := by simpa using hm
      obtain ⟨z, hz⟩ : ∃ z, w0.slot x f = .obj z := by
        rcases C.hv.ref x f hxo hf.ref hm' with e | e
        · exact absurd e hs0
        · exact e
      rw [hslot, hz]
      simp only [hobj]
      have hzv : z ∈ values w0 x f := by simp [values, hz]
      have hwant : want M w0 w1 x f = ([z].filterMap (img M w1 f)) := by simp [want, values, hz]
      -- a new value
      have hsingle : ∀ v : Nat, img M w1 f z = some v → ∃ w', eSet M w c f v = w' ∧ Inv M w0 w1 w' (fun x' f' => D x' f' ∨ (x' = x ∧ f' = f)) (fun x' f' => D x' f' ∨ (x' = x ∧ f' = f)) := by
        intro v hiv
        have hw : want M w0 w1 x f = [v] := by simp [hwant, hiv]
        rcases hop : (M.feature f).opposite with _ | g
        · have hch := change_slot h.str v hge hf hm'
          have := hb.changed C hx hch (by simp) (by simp [hw]) (by simp [hop]) hD (.inr ⟨rfl, rfl⟩) hs0
          refine ⟨_, rfl, ?_⟩
          have he : eSet M w c f v = setSlot w c f (.obj v) := by simp [eSet, hf.ncont, hop]
          rw [he]
          refine this.finish C hx (by rw [hch.val, hw]) ?_
          intro _ _
          exact hch.set
        · have hoz : w1.objects z = some v := by
            simp only [img, hop] at hiv
            split at hiv
            · rename_i e; rw [e, hiv]
            · simp at hiv
          refine ⟨_, rfl, ?_⟩
          simp only [eSet, hf.ncont, hop, Option.isSome_some, Bool.or_true, if_true, Bool.false_eq_true, if_false]
          by_cases heq : w.slot c f = .obj v
          · rw [if_pos heq]
            refine hb.finish C hx (by simp [values, heq, hw]) ?_
            intro _ _
            simp [heq]
          · rw [if_neg heq]
            have hnone : w.slot c f = .none := by
              rcases h.str.single c f hge hlt hf hm' with e | ⟨u, e⟩
              · exact e
              · have := h.abs.sub x c f u hx hf (by simp [values, e])
                rw [hw, List.mem_singleton] at this
                exact absurd (this ▸ e) heq
            rw [hnone]
            obtain ⟨h1, h2⟩ := hb.assign C hx hoz hf hm' hop hzv (by simp [values, hnone])
            refine h1.finish C hx (by rw [h2, hw]) ?_
            intro _ _
            simp [setSlot]
      rcases hoz : w1.objects z with _ | z'
      · simp only
        by_cases hop : (M.feature f).opposite.isNone = true
        · rw [if_pos hop]
          obtain ⟨w', h1, h2⟩ := hsingle z (by simp [img, hoz, hop])
          exact ⟨w', by rw [h1], h2⟩
        · rw [if_neg hop]
          have hw : want M w0 w1 x f = [] := by
            have : img M w1 f z = none := by simp only [img, hoz]; rw [if_neg hop]
            simp [hwant, this]
          refine ⟨w, rfl, hb.finish C hx ?_ (by simp [hw, hm'])⟩
          rw [hw, List.eq_nil_iff_forall_not_mem]
          intro v hv
          have := h.abs.sub x c f v hx hf hv
          rw [hw] at this
          simp at this
      · simp only
        obtain ⟨w', h1, h2⟩ := hsingle z' (by simp [img, hoz])
        exact ⟨w', by rw [h1], h2⟩
  · rw [if_neg his]
    have his' : isSet M w0 x f = false := by simpa using his
    have hv0 := not_set_values C.hv hf.ncer his'
    have hw : want M w0 w1 x f = [] := by simp [want, hv0]
    refine ⟨w, rfl, hb.finish C hx ?_ ?_⟩
    · rw [hw, List.eq_nil_iff_forall_not_mem]
      intro v hv
      have := h.abs.sub x c f v hx hf hv
      rw [hw] at this
      simp at this
    · intro e
      exact absurd e his

theorem Inv.congr {D' : Nat → Nat → Prop} (h : Inv M w0 w1 w D D) (hd : ∀ x f : Nat, D x f ↔ D' x f) : Inv M w0 w1 w D' D' := by
  have : D = D' := by funext x f; exact propext (hd x f)
  subst this
  exact h

theorem references_loop (C : Ctx M w0 w1 S) {x c : Nat} (hx : w1.objects x = some c) : ∀ (fs : List Nat) (D : Nat → Nat → Prop) (w : World), Inv M w0 w1 w D D → (∀ f ∈ fs, Cross M f ∧ ¬ D x f) → fs.Nodup →
    ∃ w', fs.foldlM (copyReference M x c) w = some w' ∧ Inv M w0 w1 w' (fun x' f' => D x' f' ∨ (x' = x ∧ f' ∈ fs)) (fun x' f' => D x' f' ∨ (x' = x ∧ f' ∈ fs)) := by
  intro fs
  induction fs with
  | nil =>
    intro D w h _ _
    exact ⟨w, rfl, h.congr (by simp)⟩
  | cons f fs ih =>
    intro D w h hf hn
    rw [List.nodup_cons] at hn
    obtain ⟨w2, h1, h2⟩ := copyReference_step C h hx (hf f (by simp)).1 (hf f (by simp)).2
    obtain ⟨w', h3, h4⟩ := ih _ w2 h2 (by
      intro f' hf'
      refine ⟨(hf f' (by simp [hf'])).1, ?_⟩
      rintro (hd | ⟨-, rfl⟩)
      · exact (hf f' (by simp [hf'])).2 hd
      · exact hn.1 hf') hn.2
    refine ⟨w', ?_, h4.congr ?_⟩
    · rw [List.foldlM_cons, h1]
      exact h3
    · intro x' f'
      simp only [List.mem_cons]
      constructor
      · rintro ((h | ⟨h, h'⟩) | ⟨h, h'⟩)
        · exact .inl h
        · exact .inr ⟨h, .inl h'⟩
        · exact .inr ⟨h, .inr h'⟩
      · rintro (h | ⟨h, h' | h'⟩)
        · exact .inl (.inl h)
        · exact .inl (.inr ⟨h, h'⟩)
        · exact .inr ⟨h, h'⟩

theorem mem_crossReferences {c f : Nat} : f ∈ crossReferences M c ↔ f ∈ M.declared c ∧ Cross M f ∧ (M.feature f).changeable = true ∧ (M.feature f).derived = false := by
  simp only [crossReferences, List.mem_filter, Bool.and_eq_true, Bool.not_eq_true']
  constructor
  · rintro ⟨h1, ⟨⟨⟨h2, h3⟩, h4⟩, h5⟩, h6⟩
    exact ⟨h1, ⟨h2, h5, h6⟩, h3, h4⟩
  · rintro ⟨h1, ⟨h2, h5, h6⟩, h3, h4⟩
    exact ⟨h1, ⟨⟨⟨h2, h3⟩, h4⟩, h5⟩, h6⟩

theorem copyReferences_loop (C : Ctx M w0 w1 S) : ∀ (order : List Nat) (D : Nat → Nat → Prop) (w : World), Inv M w0 w1 w D D → order.Nodup → (∀ x ∈ order, S x ∧ ∀ f, ¬ D x f) →
    ∃ w', copyReferences M order w = some w' ∧ Inv M w0 w1 w' (fun x' f' => D x' f' ∨ (x' ∈ order ∧ f' ∈ crossReferences M (w0.cls x')))
      (fun x' f' => D x' f' ∨ (x' ∈ order ∧ f' ∈ crossReferences M (w0.cls x'))) := by
  intro order
  induction order with
  | nil =>
    intro D w h _ _
    exact ⟨w, rfl, h.congr (by simp)⟩
  | cons x order ih =>
    intro D w h hn ho
    rw [List.nodup_cons] at hn
    obtain ⟨hS, hDx⟩ := ho x (by simp)
    obtain ⟨c, hx, -, -⟩ := C.inS x hS
    have hcls : w.cls x = w0.cls x := h.str.frame.cls x (C.old x hS)
    obtain ⟨w2, h1, h2⟩ := references_loop C hx (crossReferences M (w.cls x)) D w h (by
      intro f hf
      exact ⟨(mem_crossReferences.1 hf).2.1, hDx f⟩) ((C.wf.once _).filter _)
    obtain ⟨w', h3, h4⟩ := ih _ w2 h2 hn.2 (by
      intro x' hx'
      refine ⟨(ho x' (by simp [hx'])).1, ?_⟩
      rintro f (hd | ⟨rfl, -⟩)
      · exact (ho x' (by simp [hx'])).2 f hd
      · exact hn.1 hx')
    refine ⟨w', ?_, h4.congr ?_⟩
    · simp only [copyReferences] at h3 ⊢
      rw [List.foldlM_cons]
      have hobj : w.objects x = some c := by rw [h.str.objects]; exact hx
      simp only [hobj, h1]
      exact h3
    · intro x' f'
      rw [hcls]
      simp only [List.mem_cons]
      constructor
      · rintro ((h | ⟨rfl, h'⟩) | ⟨h, h'⟩)
        · exact .inl h
        · exact .inr ⟨.inl rfl, h'⟩
        · exact .inr ⟨.inr h, h'⟩
      · rintro (h | ⟨rfl | h, h'⟩)
        · exact .inl (.inl h)
        · exact .inl (.inr ⟨rfl, h'⟩)
        · exact .inr ⟨h, h'⟩

end Verif.DeepCopy
