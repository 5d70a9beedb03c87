import Verif.Proofs.XMLCodecText

/-!
# Fragments of the objects of a document
-/

namespace Verif.XMLCodec

open Verif.XMLString (Text)
open Verif.XMLLex (Name LegalName Literal inRange)
open Spec

variable {D : Type}

theorem objects_objs {l : List (Option Nat)} (h : none ∉ l) : l = (objects (some (Val.objs l : Val D))).map some := by
  simp only [objects]
  induction l with
  | nil => rfl
  | cons x l ih =>
    simp only [List.mem_cons, not_or] at h
    cases x with
    | none => exact absurd rfl h.1
    | some x =>
      have e : (some x :: l).filterMap id = x :: l.filterMap id := rfl
      rw [e, List.map_cons, ← ih h.2]

theorem values_datas {l : List (Option D)} (h : none ∉ l) : l = (values (some (Val.datas l : Val D))).map some := by
  simp only [values]
  induction l with
  | nil => rfl
  | cons x l ih =>
    simp only [List.mem_cons, not_or] at h
    cases x with
    | none => exact absurd rfl h.1
    | some x =>
      have e : (some x :: l).filterMap id = x :: l.filterMap id := rfl
      rw [e, List.map_cons, ← ih h.2]

theorem idxOf?_map_some (l : List Nat) (x : Nat) (h : x ∈ l) : (l.map some).idxOf? (some x) = some (l.idxOf x) := by
  induction l with
  | nil => simp at h
  | cons y l ih =>
    by_cases e : y = x
    · subst e; simp [List.idxOf?_cons]
    · have hx : x ∈ l := by
        rcases List.mem_cons.1 h with h | h
        · exact absurd h.symm e
        · exact h
      have e' : (some y == some x) = false := by simpa using e
      rw [List.map_cons, List.idxOf?_cons, e', ih hx, List.idxOf_cons_ne _ e]
      simp

/-! ## The document -/

section
variable {env : Env D} {g : Graph D}

theorem inOrder_sub {os l : List Nat} (h : InOrder env g os l) : ∀ o ∈ os, o ∈ l := by
  induction h with
  | nil => simp
  | cons o os l l' _ _ _ ih2 =>
    intro x hx
    rcases List.mem_cons.1 hx with rfl | hx
    · simp
    · simp [ih2 x hx]

theorem inOrder_children {os l : List Nat} (h : InOrder env g os l) : ∀ o ∈ l, ∀ x ∈ children env g o, x ∈ l := by
  induction h with
  | nil => simp
  | cons o os l l' h1 _ ih1 ih2 =>
    intro y hy x hx
    rcases List.mem_cons.1 hy with rfl | hy
    · simp [inOrder_sub h1 x hx]
    · rcases List.mem_append.1 hy with hy | hy
      · simp [ih1 y hy x hx]
      · simp [ih2 y hy x hx]

end

/-- the segment of a fragment -/
def seg (f : Feature) (l : List Nat) (x : Nat) : Text := '@' :: f.name ++ (if f.many then '.' :: itoa (l.idxOf x) else [])

/-- `x` is contained at depth `d`, with these segments -/
inductive Chain (env : Env D) (g : Graph D) (root : Nat) (doc : List Nat) : Nat → Nat → List Text → Prop
  | root : Chain env g root doc 0 root []
  | step (d c : Nat) (segs : List Text) (p : Feature × Nat) (x : Nat) : Chain env g root doc d c segs → c ∈ doc →
      p ∈ (env.features (g.cls c)).zipIdx → p.1.isReference = true → p.1.containment = true → p.1.transient = false →
      x ∈ objects (g.slot c p.2) → Inside g x → Chain env g root doc (d + 1) x (segs ++ [seg p.1 (objects (g.slot c p.2)) x])

theorem mem_children {env : Env D} {g : Graph D} {o x : Nat} : x ∈ children env g o ↔
    ∃ p ∈ (env.features (g.cls o)).zipIdx, p.1.isReference = true ∧ p.1.containment = true ∧ p.1.transient = false ∧
      x ∈ objects (g.slot o p.2) ∧ Inside g x := by
  simp only [children, List.mem_flatMap]
  constructor
  · rintro ⟨p, hp, hx⟩
    split at hx
    · rename_i h
      simp only [List.mem_filter, decide_eq_true_eq] at hx
      exact ⟨p, hp, h.1, h.2.1, h.2.2, hx.1, hx.2⟩
    · simp at hx
  · rintro ⟨p, hp, h1, h2, h3, h4, h5⟩
    exact ⟨p, hp, by rw [if_pos ⟨h1, h2, h3⟩]; simp [h4, h5]⟩

section
variable {env : Env D} {g : Graph D} {opt : Opt} {root : Nat} {doc : List Nat}

theorem chain_order {os l : List Nat} (h : InOrder env g os l) : ∀ N, (∀ x ∈ l, x ∈ doc) →
    (∀ o ∈ os, ∃ d segs, d ≤ N ∧ Chain env g root doc d o segs) → ∀ y ∈ l, ∃ d segs, d < N + l.length ∧ Chain env g root doc d y segs := by
  induction h with
  | nil => simp
  | cons o os l l' h1 _ ih1 ih2 =>
    intro N hsub hos y hy
    obtain ⟨d, segs, hd, hc⟩ := hos o (by simp)
    rcases List.mem_cons.1 hy with rfl | hy
    · exact ⟨d, segs, by simp; omega, hc⟩
    · rcases List.mem_append.1 hy with hy | hy
      · obtain ⟨d', segs', hd', hc'⟩ := ih1 (N + 1) (fun x hx => hsub x (by simp [hx])) (by
          intro x hx
          obtain ⟨p, hp, a, b, c, e, f⟩ := mem_children.1 hx
          exact ⟨d + 1, _, by omega, .step d o segs p x hc (hsub o (by simp)) hp a b c e f⟩) y hy
        exact ⟨d', segs', by simp; omega, hc'⟩
      · obtain ⟨d', segs', hd', hc'⟩ := ih2 N (fun x hx => hsub x (by simp [hx])) (fun x hx => hos x (by simp [hx])) y hy
        exact ⟨d', segs', by simp; omega, hc'⟩

variable (h : Savable env g opt root doc)
include h

theorem root_mem : root ∈ doc := inOrder_sub h.order root (by simp)

theorem children_mem {o x : Nat} (ho : o ∈ doc) (hx : x ∈ children env g o) : x ∈ doc := inOrder_children h.order o ho x hx

theorem chain_mem {y : Nat} (hy : y ∈ doc) : ∃ d segs, d < doc.length ∧ Chain env g root doc d y segs := by
  have := chain_order (root := root) (doc := doc) h.order 0 (fun x hx => hx) (by
    intro o ho
    simp only [List.mem_singleton] at ho
    subst ho
    exact ⟨0, [], by omega, .root⟩) y hy
  simpa using this

theorem chain_root {d : Nat} {segs : List Text} (hc : Chain env g root doc d root segs) : d = 0 ∧ segs = [] := by
  generalize e : root = y at hc
  have hd := h.top.2
  cases hc with
  | root => exact ⟨rfl, rfl⟩
  | step d c segs p x _ _ _ _ _ _ _ hin =>
    subst e
    rw [hin.2] at hd; cases hd

theorem saved_contain {f : Feature} (h1 : f.isReference = true) (h2 : f.containment = true) (h3 : f.transient = false) : Saved f :=
  ⟨h3, fun _ => .inl h2, fun e => by rw [h1] at e; cases e⟩

theorem segment_eq {c x : Nat} {p : Feature × Nat} (hc : c ∈ doc) (hp : p ∈ (env.features (g.cls c)).zipIdx)
    (h1 : p.1.isReference = true) (h2 : p.1.containment = true) (h3 : p.1.transient = false) (hx : x ∈ objects (g.slot c p.2)) :
    segment env g c p.2 x = some (seg p.1 (objects (g.slot c p.2)) x) := by
  have hi := List.mem_zipIdx_iff_getElem?.1 hp
  simp only [segment, hi, seg]
  cases hm : p.1.many with
  | false => simp
  | true =>
    cases hs : g.slot c p.2 with
    | none => rw [hs] at hx; simp [objects] at hx
    | some v =>
      have hf := (h.fits c hc p hp (saved_contain h h1 h2 h3) v hs).1
      cases v with
      | objs l =>
        have hl := objects_objs (D := D) hf.2.2.1
        rw [hs] at hx
        simp only [if_true]
        have := idxOf?_map_some _ x hx
        rw [← hl] at this
        rw [this]
      | obj o => rw [hf.2.1] at hm; cases hm
      | data v => rw [hf.1] at h1; cases h1
      | datas l => rw [hf.1] at h1; cases h1

theorem climb_eq (id : Text) {d x : Nat} {segs : List Text} (hc : Chain env g root doc d x segs) : 0 < d → ∀ (n : Nat) (acc : List Text),
    d ≤ n → climb env g id n x acc = some (root, true, (if id = [] then segs else []) ++ acc) := by
  induction hc with
  | root => intro hd; omega
  | step d c segs p x hc hcd hp a b t hx hin ih =>
    intro _ n acc hn
    cases n with
    | zero => omega
    | succ n =>
      rw [climb, h.container c hcd p hp a b t x hx hin]
      simp only [segment_eq h hcd hp a b t hx]
      by_cases hroot : c = root
      · subst hroot
        obtain ⟨rfl, rfl⟩ := chain_root h hc
        rw [h.top.2]
        by_cases e : id = [] <;> simp [e]
      · have hdir := h.direct c hcd hroot
        have hpos : 0 < d := by
          cases hc with
          | root => exact absurd rfl hroot
          | step => omega
        rw [hdir]
        by_cases e : id = []
        · have := ih hpos n (seg p.1 (objects (g.slot c p.2)) x :: acc) (by omega)
          rw [if_pos e] at this ⊢
          simp only [Option.map_some]
          rw [if_neg (by simp), this, if_pos e]; simp
        · have := ih hpos n acc (by omega)
          rw [if_neg e] at this ⊢
          simp only
          rw [if_neg (by simp), this, if_neg e]

theorem eid_cases (o : Nat) : eid env (g.cls o) (g.slot o) = [] ∨ HasID env g o (eid env (g.cls o) (g.slot o)) := by
  cases hi : (env.features (g.cls o)).findIdx? (fun f => !f.isReference && f.isID) with
  | none => left; simp [eid, hi]
  | some i =>
    obtain ⟨hlt, hp, -⟩ := List.findIdx?_eq_some_iff_getElem.1 hi
    have hf : (env.features (g.cls o))[i]? = some (env.features (g.cls o))[i] := List.getElem?_eq_getElem hlt
    simp only [eid, hi, hf]
    cases hs : g.slot o i with
    | none => left; rfl
    | some v =>
      cases v with
      | data v =>
        cases v with
        | none => left; rfl
        | some v =>
          right
          simp only [Bool.and_eq_true, Bool.not_eq_true'] at hp
          exact ⟨((env.features (g.cls o))[i], i), List.mem_zipIdx_iff_getElem?.2 hf, hp.1, hp.2, v, hs, rfl⟩
      | obj o => left; rfl
      | objs l => left; rfl
      | datas l => left; rfl

theorem eid_managed (hm : g.manager = true) {o : Nat} (ho : o ∈ doc) : eid env (g.cls o) (g.slot o) = [] := by
  rcases eid_cases h o with e | ⟨p, hp, -, hid, -⟩
  · exact e
  · have hi := List.mem_zipIdx_iff_getElem?.1 hp
    have := (h.managed hm).2.1 o ho p.1 (List.mem_of_getElem? hi)
    rw [hid] at this; cases this

/-- the three kinds of fragments -/
inductive FragCase (env : Env D) (g : Graph D) (root : Nat) (doc : List Nat) (y : Nat) : Text → Prop
  | eid (t : Text) : g.manager = false → HasID env g y t → t ≠ [] → eid env (g.cls y) (g.slot y) = t → FragCase env g root doc y t
  | id (t : Text) : g.manager = true → g.id y = some t → ProperID t → FragCase env g root doc y t
  | path (d : Nat) (segs : List Text) : g.manager = false → XMLCodec.eid env (g.cls y) (g.slot y) = [] → Chain env g root doc d y segs →
      FragCase env g root doc y ('/' :: join '/' ([] :: segs))

theorem frag_exists {y : Nat} (hy : y ∈ doc) : ∃ t, FragCase env g root doc y t ∧ ∀ n, doc.length ≤ n → uriFragment env g n y = some t := by
  cases hm : g.manager with
  | true =>
    obtain ⟨id, hid, hp⟩ := (h.managed hm).2.2.1 y hy
    refine ⟨id, .id id hm hid hp, fun n hn => ?_⟩
    have he := eid_managed h hm hy
    have hne := hp.1
    obtain ⟨d, segs, hd, hc⟩ := chain_mem h hy
    simp only [uriFragment, he, idFor, hm, hid, if_true]
    simp only [ne_eq, not_true_eq_false, if_false]
    by_cases hroot : y = root
    · subst hroot
      rw [if_pos h.top.2, if_pos hne]
    · rw [h.direct y hy hroot, if_neg (by simp)]
      have hpos : 0 < d := by
        cases hc with
        | root => exact absurd rfl hroot
        | step => omega
      rw [climb_eq h id hc hpos n [] (by omega)]
      simp [hne]
  | false =>
    by_cases he : eid env (g.cls y) (g.slot y) = []
    · obtain ⟨d, segs, hd, hc⟩ := chain_mem h hy
      refine ⟨_, .path d segs hm he hc, fun n hn => ?_⟩
      simp only [uriFragment, he, idFor, hm]
      simp only [ne_eq, not_true_eq_false, if_false]
      by_cases hroot : y = root
      · subst hroot
        obtain ⟨rfl, rfl⟩ := chain_root h hc
        simp [h.top.2, rootSegment, h.roots, join, he]
      · rw [h.direct y hy hroot, if_neg (by simp)]
        have hpos : 0 < d := by
          cases hc with
          | root => exact absurd rfl hroot
          | step => omega
        simp only [Bool.false_eq_true, if_false, he]
        rw [climb_eq h [] hc hpos n [] (by omega)]
        simp only [rootSegment, h.roots]
        simp [join]
    · refine ⟨_, .eid _ hm ?_ he rfl, fun n hn => ?_⟩
      · rcases eid_cases h y with e | e
        · exact absurd e he
        · exact e
      · rw [uriFragment, if_pos he]

/-- the fragment of an object of the document -/
noncomputable def frag (env : Env D) (g : Graph D) (doc : List Nat) (y : Nat) : Text := (uriFragment env g doc.length y).getD []

theorem frag_case {y : Nat} (hy : y ∈ doc) : FragCase env g root doc y (frag env g doc y) := by
  obtain ⟨t, ht, e⟩ := frag_exists h hy
  rw [frag, e _ (Nat.le_refl _)]; exact ht

theorem frag_eq {y : Nat} (hy : y ∈ doc) {n : Nat} (hn : doc.length ≤ n) : uriFragment env g n y = some (frag env g doc y) := by
  obtain ⟨t, ht, e⟩ := frag_exists h hy
  rw [frag, e _ (Nat.le_refl _), e n hn]; rfl

omit h in
theorem nameChar_facts {c : Char} (hc : XMLLex.isNameChar c = true) :
    c ≠ '&' ∧ c ≠ '<' ∧ c ≠ '"' ∧ c ≠ '\r' ∧ inRange c = true ∧ c ≠ ' ' ∧ c ≠ '/' := by
  have key : 45 ≤ c.toNat ∧ c.toNat ≠ 47 ∧ c.toNat ≤ 122 ∧ c.toNat ≠ 60 := by
    simp only [XMLLex.isNameChar, XMLLex.isLetter, XMLLex.isDigit, Bool.or_eq_true, Bool.and_eq_true, decide_eq_true_eq, Char.le_def,
      UInt32.le_iff_toNat_le] at hc
    have e : c.val.toNat = c.toNat := rfl
    rw [e] at hc
    rcases hc with ((((h | h) | h) | h) | h) | h
    · rcases h with h | h
      · have h1 : ('a' : Char).val.toNat = 97 := rfl
        have h2 : ('z' : Char).val.toNat = 122 := rfl
        omega
      · have h1 : ('A' : Char).val.toNat = 65 := rfl
        have h2 : ('Z' : Char).val.toNat = 90 := rfl
        omega
    · have h1 : ('0' : Char).val.toNat = 48 := rfl
      have h2 : ('9' : Char).val.toNat = 57 := rfl
      omega
    all_goals (subst h; decide)
  refine ⟨?_, ?_, ?_, ?_, ?_, ?_, ?_⟩
  · rintro rfl; revert key; decide
  · rintro rfl; revert key; decide
  · rintro rfl; revert key; decide
  · rintro rfl; revert key; decide
  · simp only [inRange]; simp; omega
  · rintro rfl; revert key; decide
  · rintro rfl; revert key; decide

omit h in
theorem digit_nameChar {c : Char} (hc : XMLLex.isDigit c = true) : XMLLex.isNameChar c = true := by
  simp [XMLLex.isNameChar, hc]

theorem seg_chars {c x : Nat} {p : Feature × Nat} (hc : c ∈ doc) (hp : p ∈ (env.features (g.cls c)).zipIdx) :
    ∀ k ∈ seg p.1 (objects (g.slot c p.2)) x, k = '@' ∨ XMLLex.isNameChar k = true := by
  have hi := List.mem_zipIdx_iff_getElem?.1 hp
  have hid := ((h.features c hc).2 p.1 (List.mem_of_getElem? hi)).1
  intro k hk
  simp only [seg, List.cons_append, List.mem_cons, List.mem_append] at hk
  rcases hk with hk | hk | hk
  · exact .inl hk
  · exact .inr (hid.1.2.1 k hk)
  · right
    split at hk
    · rcases List.mem_cons.1 hk with rfl | hk
      · decide
      · exact digit_nameChar (itoa_digits _ k hk)
    · simp at hk

theorem chain_chars {d y : Nat} {segs : List Text} (hc : Chain env g root doc d y segs) :
    ∀ t ∈ segs, ∀ k ∈ t, k = '@' ∨ XMLLex.isNameChar k = true := by
  induction hc with
  | root => simp
  | step d c segs p x _ hcd hp _ _ _ _ _ ih =>
    intro t ht
    rcases List.mem_append.1 ht with ht | ht
    · exact ih t ht
    · simp only [List.mem_singleton] at ht
      subst ht
      exact seg_chars h hcd hp

theorem frag_chars {y : Nat} (hy : y ∈ doc) : Literal (frag env g doc y) ∧ ' ' ∉ frag env g doc y := by
  have key := frag_case h hy
  generalize frag env g doc y = t at key
  cases key with
  | eid _ hm hid hne he =>
    have := (h.unmanaged hm).2.2.1 y hy _ hid hne
    exact ⟨this.2.1, this.2.2.1⟩
  | id _ hm hid hp => exact ⟨hp.2.1, hp.2.2.1⟩
  | path d segs hm he hc =>
    have : ∀ k ∈ '/' :: join '/' ([] :: segs), k = '/' ∨ k = '@' ∨ XMLLex.isNameChar k = true := by
      intro k hk
      rcases List.mem_cons.1 hk with hk | hk
      · exact .inl hk
      · rcases mem_join hk with hk | ⟨t, ht, hk⟩
        · exact .inl hk
        · rcases List.mem_cons.1 ht with rfl | ht
          · simp at hk
          · exact .inr (chain_chars h hc t ht k hk)
    constructor
    · intro k hk
      rcases this k hk with rfl | rfl | e
      · decide
      · decide
      · have := nameChar_facts e
        exact ⟨this.1, this.2.1, this.2.2.1, this.2.2.2.1, this.2.2.2.2.1⟩
    · intro hk
      rcases this _ hk with e | e | e
      · revert e; decide
      · revert e; decide
      · exact (nameChar_facts e).2.2.2.2.2.1 rfl

end

end Verif.XMLCodec
