import Verif.Spec.Binary
import Mathlib.Data.List.Nodup

/-! Proofs for C22: metamodel, URIs. -/

namespace Verif.Binary

open Spec

variable {D : Type}

theorem prefix_get {β : Type} {a b : List β} (h : a <+: b) {i : Nat} {x : β} (hx : a[i]? = some x) : b[i]? = some x := by
  obtain ⟨t, rfl⟩ := h
  have : i < a.length := by
    rcases Nat.lt_or_ge i a.length with h | h
    · exact h
    · simp [h] at hx
  rw [List.getElem?_append_left this]
  exact hx

theorem getElem?_idxOf {β : Type} [DecidableEq β] {l : List β} {x : β} (h : x ∈ l) : l[l.idxOf x]? = some x := by
  have := List.idxOf_lt_length_iff.2 h
  simp [this]

/-- the tables of the decoder are those of the encoder -/
structure Rel (env : Env D) (st : Enc) (d : Dec D) : Prop where
  pkgs : d.pkgs = st.pkgs
  once : st.pkgs.Nodup
  classAt : ∀ (i p : Nat), st.pkgs[i]? = some p → ∀ k : Nat, d.classAt i k = (st.classes p)[k]?
  fresh : ∀ p : Nat, p ∉ st.pkgs → st.classes p = []
  home : ∀ (p c : Nat), c ∈ st.classes p → env.pkg c = p
  distinct : ∀ p : Nat, (st.classes p).Nodup
  bound : ∀ p : Nat, (st.classes p).length ≤ (env.classifiers p).length
  featAt : ∀ (i p k c : Nat), st.pkgs[i]? = some p → (st.classes p)[k]? = some c →
    ∀ j : Nat, d.featAt i k j = if st.named c j then (env.features c)[j]? else none
  unnamed : ∀ c : Nat, c ∉ st.classes (env.pkg c) → ∀ j : Nat, st.named c j = false
  uris : d.uris = st.uris
  enums : d.enums = st.enums

/-- the tables of the encoder only grow -/
structure Ext (st st' : Enc) : Prop where
  objs : st.objs <+: st'.objs
  pkgs : st.pkgs <+: st'.pkgs
  classes : ∀ p : Nat, st.classes p <+: st'.classes p
  once : st.objs.Nodup → st'.objs.Nodup

theorem Ext.refl (st : Enc) : Ext st st := ⟨List.prefix_refl _, List.prefix_refl _, fun _ => List.prefix_refl _, id⟩

theorem Ext.trans {a b c : Enc} (h : Ext a b) (k : Ext b c) : Ext a c :=
  ⟨h.objs.trans k.objs, h.pkgs.trans k.pkgs, fun p => (h.classes p).trans (k.classes p), fun x => k.once (h.once x)⟩

theorem rel_objs {env : Env D} {st : Enc} {d : Dec D} (h : Rel env st d) (l : List Nat) (l' : List (Copy D)) :
    Rel env { st with objs := l } { d with objs := l' } :=
  ⟨h.1, h.2, h.3, h.4, h.5, h.6, h.7, h.8, h.9, h.10, h.11⟩

theorem rel_objs_dec {env : Env D} {st : Enc} {d : Dec D} (h : Rel env st d) (l' : List (Copy D)) :
    Rel env st { d with objs := l' } :=
  ⟨h.1, h.2, h.3, h.4, h.5, h.6, h.7, h.8, h.9, h.10, h.11⟩

theorem rel_uris {env : Env D} {st : Enc} {d : Dec D} (h : Rel env st d) (l : List String) :
    Rel env { st with uris := l } { d with uris := l } :=
  ⟨h.1, h.2, h.3, h.4, h.5, h.6, h.7, h.8, h.9, rfl, h.11⟩

theorem rel_enums {env : Env D} {st : Enc} {d : Dec D} (h : Rel env st d) (l : List String) :
    Rel env { st with enums := l } { d with enums := l } :=
  ⟨h.1, h.2, h.3, h.4, h.5, h.6, h.7, h.8, h.9, h.10, rfl⟩

theorem item_nat {β : Type} (l : List β) (n : Nat) : item l (n : Int) = l[n]? := by
  simp only [item, Int.toNat_natCast]
  rw [if_neg (by omega)]

/-! ### URIs -/

theorem uri_spec (env : Env D) (st : Enc) (u : Option URI) (hu : ∀ v : URI, u = some v → Readable env v.path) :
    ∃ l : List String, (encodeURI env st u).1 = { st with uris := l } ∧ (encodeURI env st u).2 ≠ [] ∧
      ∀ (d : Dec D) (rest : List (Tok D)), d.uris = st.uris →
        decodeURI env d ((encodeURI env st u).2 ++ rest) = some (u, { d with uris := l }, rest) := by
  cases u with
  | none =>
    refine ⟨st.uris, rfl, by simp [encodeURI], ?_⟩
    intro d rest hd
    simp [encodeURI, decodeURI, decodeInt, ← hd]
  | some v =>
    by_cases hm : v.path ∈ st.uris
    · refine ⟨st.uris, by simp [encodeURI, hm], by simp [encodeURI, hm], ?_⟩
      intro d rest hd
      have hlt := List.idxOf_lt_length_iff.2 hm
      simp only [encodeURI, hm, if_true, List.cons_append, List.nil_append, decodeURI, decodeInt, hd]
      rw [if_neg (by omega), if_neg (by omega), item_nat, getElem?_idxOf hm]
      simp [decodeString, ← hd]
    · refine ⟨st.uris ++ [v.path], by simp [encodeURI, hm], by simp [encodeURI, hm], ?_⟩
      intro d rest hd
      have := hu v rfl
      simp only [Readable] at this
      simp only [encodeURI, hm, if_false, List.cons_append, List.nil_append, decodeURI, decodeInt, hd]
      rw [if_neg (by omega), if_pos (by omega)]
      simp [decodeString, this]

/-! ### Packages and classes -/

theorem package_spec (env : Env D) (st : Enc) (p : Nat) (hreg : env.registry (env.nsURI p) = some p)
    (hu : ∀ v : URI, env.pkgURI p = some v → Readable env v.path) :
    Ext st (encodePackage env st p).1 ∧ (encodePackage env st p).1.objs = st.objs ∧
      (encodePackage env st p).1.classes = st.classes ∧ (encodePackage env st p).1.named = st.named ∧
      ∀ (d : Dec D) (rest : List (Tok D)), Rel env st d →
        ∃ (q : Nat) (d' : Dec D), decodePackage env d ((encodePackage env st p).2 ++ rest) = some (q, d', rest) ∧
          Rel env (encodePackage env st p).1 d' ∧ d'.objs = d.objs ∧ (encodePackage env st p).1.pkgs[q]? = some p := by
  by_cases hm : p ∈ st.pkgs
  · have e : encodePackage env st p = (st, [.int (st.pkgs.idxOf p)]) := by simp [encodePackage, hm]
    rw [e]
    refine ⟨Ext.refl _, rfl, rfl, rfl, ?_⟩
    intro d rest h
    have hlt := List.idxOf_lt_length_iff.2 hm
    refine ⟨st.pkgs.idxOf p, d, ?_, h, rfl, getElem?_idxOf hm⟩
    simp only [List.cons_append, List.nil_append, decodePackage, decodeInt, h.pkgs]
    rw [if_neg (by omega), if_neg (by omega)]
    simp
  · obtain ⟨l, h1, h2, h3⟩ := uri_spec env st (env.pkgURI p) hu
    have e : encodePackage env st p = ({ st with uris := l, pkgs := st.pkgs ++ [p] },
        .int st.pkgs.length :: .str (env.nsURI p) :: (encodeURI env st (env.pkgURI p)).2) := by
      simp [encodePackage, hm, h1]
    rw [e]
    refine ⟨⟨List.prefix_refl _, List.prefix_append _ _, fun _ => List.prefix_refl _, id⟩, rfl, rfl, rfl, ?_⟩
    intro d rest h
    refine ⟨st.pkgs.length, { d with
      uris := l,
      pkgs := st.pkgs ++ [p],
      classAt := fun q k => if q = st.pkgs.length then none else d.classAt q k }, ?_, ?_, rfl, by simp⟩
    · simp only [List.cons_append, decodePackage, decodeInt, h.pkgs, decodeString]
      rw [if_pos (by omega), h3 d rest h.uris]
      simp [hreg, h.pkgs]
    · obtain ⟨r1, r2, r3, r4, r5, r6, r7, r8, r9, r10, r11⟩ := h
      have hpc : st.classes p = [] := r4 p hm
      have hi : ∀ (i x : Nat), (st.pkgs ++ [p])[i]? = some x → (i < st.pkgs.length ∧ st.pkgs[i]? = some x) ∨
          (i = st.pkgs.length ∧ x = p) := by
        intro i x hx
        rcases Nat.lt_trichotomy i st.pkgs.length with h | h | h
        · rw [List.getElem?_append_left h] at hx
          exact .inl ⟨h, hx⟩
        · subst h; simp at hx; exact .inr ⟨rfl, hx.symm⟩
        · rw [List.getElem?_eq_none (by simp; omega)] at hx
          simp at hx
      constructor
      · rfl
      · exact List.nodup_append.2 ⟨r2, by simp, by intro a ha b hb; simp at hb; rintro rfl; exact hm (hb ▸ ha)⟩
      · intro i x hx k
        rcases hi i x hx with ⟨a, b⟩ | ⟨a, b⟩
        · simp only
          rw [if_neg (by omega), r3 i x b k]
        · subst a b; simp [hpc]
      · intro x hx
        simp at hx
        exact r4 x hx.1
      · exact r5
      · exact r6
      · exact r7
      · intro i x k c hx hk
        rcases hi i x hx with ⟨a, b⟩ | ⟨a, b⟩
        · exact r8 i x k c b hk
        · subst a b; simp [hpc] at hk
      · exact r9
      · rfl
      · exact r11

theorem nodup_get {β : Type} {l : List β} (h : l.Nodup) {i j : Nat} {x : β} (hi : l[i]? = some x) (hj : l[j]? = some x) :
    i = j := by
  have hi' := List.getElem?_eq_some_iff.1 hi
  have hj' := List.getElem?_eq_some_iff.1 hj
  obtain ⟨a, b⟩ := hi'
  obtain ⟨a', b'⟩ := hj'
  exact (List.Nodup.getElem_inj_iff h).1 (b.trans b'.symm)

theorem class_spec (env : Env D) (st st' : Enc) (ts : List (Tok D)) (c : Nat) (he : encodeClass env st c = some (st', ts))
    (hreg : env.registry (env.nsURI (env.pkg c)) = some (env.pkg c))
    (hu : ∀ v : URI, env.pkgURI (env.pkg c) = some v → Readable env v.path)
    (hf : env.findClass (env.pkg c) (env.name c) = some c) :
    Ext st st' ∧ st'.objs = st.objs ∧
      ∀ (d : Dec D) (rest : List (Tok D)), Rel env st d →
        ∃ (q k : Nat) (d' : Dec D), decodeClass env d (ts ++ rest) = some ((q, k, c), d', rest) ∧ Rel env st' d' ∧
          d'.objs = d.objs ∧ st'.pkgs[q]? = some (env.pkg c) ∧ (st'.classes (env.pkg c))[k]? = some c := by
  by_cases hm : c ∈ st.classes (env.pkg c)
  · simp only [encodeClass, hm, if_true, Option.some.injEq, Prod.mk.injEq] at he
    obtain ⟨rfl, rfl⟩ := he
    refine ⟨Ext.refl _, rfl, ?_⟩
    intro d rest h
    have hp : env.pkg c ∈ st.pkgs := by
      by_cases hp : env.pkg c ∈ st.pkgs
      · exact hp
      · rw [h.fresh _ hp] at hm; simp at hm
    have hlt := List.idxOf_lt_length_iff.2 hm
    have hlt2 := List.idxOf_lt_length_iff.2 hp
    have hb := h.bound (env.pkg c)
    have hget := getElem?_idxOf hp
    refine ⟨st.pkgs.idxOf (env.pkg c), (st.classes (env.pkg c)).idxOf c, d, ?_, h, rfl, hget, getElem?_idxOf hm⟩
    have hca := h.classAt _ _ hget ((st.classes (env.pkg c)).idxOf c)
    rw [getElem?_idxOf hm] at hca
    simp only [List.cons_append, List.nil_append, decodeClass, decodePackage, decodeInt, h.pkgs]
    rw [if_neg (by omega), if_neg (by omega)]
    simp only [Int.toNat_natCast, h.pkgs, hget]
    rw [if_neg (by omega), hca]
  · obtain ⟨p1, p2, p3, p4, p5⟩ := package_spec env st (env.pkg c) hreg hu
    have hc : (st.classes (env.pkg c)).length < (env.classifiers (env.pkg c)).length := by
      by_cases hc : (st.classes (env.pkg c)).length < (env.classifiers (env.pkg c)).length
      · exact hc
      · simp [encodeClass, hm, hc] at he
    simp only [encodeClass, hm, if_false, hc, if_true, Option.some.injEq, Prod.mk.injEq] at he
    obtain ⟨rfl, rfl⟩ := he
    generalize hst1 : (encodePackage env st (env.pkg c)).1 = st1 at *
    generalize hts1 : (encodePackage env st (env.pkg c)).2 = ts1 at *
    refine ⟨⟨p1.objs, p1.pkgs, ?_, p1.once⟩, p2, ?_⟩
    · intro x
      simp only
      split
      · rename_i hx; subst hx; exact List.prefix_append _ _
      · exact List.prefix_refl _
    intro d rest h
    obtain ⟨q, d1, e1, e2, e3, e4⟩ := p5 d ([.int (st.classes (env.pkg c)).length, .str (env.name c)] ++ rest) h
    refine ⟨q, (st.classes (env.pkg c)).length, { d1 with
      classAt := fun q' k => if q' = q ∧ k = (st.classes (env.pkg c)).length then some c else d1.classAt q' k,
      featAt := fun q' k i => if q' = q ∧ k = (st.classes (env.pkg c)).length then none else d1.featAt q' k i },
      ?_, ?_, e3, e4, by simp⟩
    · simp only [decodeClass, List.append_assoc, e1]
      have hca := e2.classAt _ _ e4 (st.classes (env.pkg c)).length
      rw [p3] at hca
      simp only [List.cons_append, List.nil_append, decodeInt, e2.pkgs, e4, Int.toNat_natCast, hca,
        List.getElem?_eq_none (Nat.le_refl _), decodeString, hf]
      rw [if_neg (by omega)]
    · obtain ⟨r1, r2, r3, r4, r5, r6, r7, r8, r9, r10, r11⟩ := e2
      rw [p3] at r3 r4 r5 r6 r7 r8 r9
      have hpm : env.pkg c ∈ st1.pkgs := List.mem_of_getElem? e4
      constructor
      · exact r1
      · exact r2
      · intro i x hx k
        simp only
        by_cases hxp : x = env.pkg c
        · subst hxp
          have : i = q := nodup_get r2 hx e4
          subst this
          simp only [if_true, true_and]
          split
          · rename_i hk; subst hk; simp
          · rename_i hk
            rw [r3 i _ hx k]
            rcases Nat.lt_or_ge k (st.classes (env.pkg c)).length with h' | h'
            · rw [List.getElem?_append_left h']
            · rw [List.getElem?_eq_none h', List.getElem?_eq_none (by simp; omega)]
        · rw [if_neg, if_neg hxp, r3 i x hx k]
          rintro ⟨rfl, -⟩
          rw [e4] at hx
          exact hxp (by simpa using hx.symm)
      · intro x hx
        simp only
        rw [if_neg]
        · exact r4 x hx
        · rintro rfl; exact hx hpm
      · intro x y hy
        simp only at hy
        split at hy
        · rename_i hx
          subst hx
          rcases List.mem_append.1 hy with hy | hy
          · exact r5 _ _ hy
          · simp at hy; rw [hy]
        · exact r5 _ _ hy
      · intro x
        simp only
        split
        · exact List.nodup_append.2 ⟨r6 _, by simp, by intro a ha b hb; simp at hb; rintro rfl; exact hm (hb ▸ ha)⟩
        · exact r6 x
      · intro x
        simp only
        split
        · rename_i hx; subst hx; simp; omega
        · exact r7 x
      · intro i x k y hx hk j
        simp only at hx hk ⊢
        by_cases hxp : x = env.pkg c
        · subst hxp
          have : i = q := nodup_get r2 hx e4
          subst this
          simp only [if_true, true_and] at hk ⊢
          split
          · rename_i hkk
            subst hkk
            simp at hk
            subst hk
            rw [r9 c (by simpa using hm) j]
            simp
          · rename_i hkk
            rcases Nat.lt_or_ge k (st.classes (env.pkg c)).length with h' | h'
            · rw [List.getElem?_append_left h'] at hk
              exact r8 i _ k y hx hk j
            · rw [List.getElem?_eq_none (by simp; omega)] at hk
              simp at hk
        · rw [if_neg hxp] at hk
          rw [if_neg]
          · exact r8 i x k y hx hk j
          · rintro ⟨rfl, -⟩
            rw [e4] at hx
            exact hxp (by simpa using hx.symm)
      · intro y hy j
        simp only at hy
        refine r9 y ?_ j
        intro hh
        apply hy
        split
        · rename_i hx; rw [hx] at hh; exact List.mem_append_left _ hh
        · exact hh
      · exact r10
      · exact r11

end Verif.Binary
