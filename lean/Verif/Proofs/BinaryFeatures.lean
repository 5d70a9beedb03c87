import Verif.Proofs.BinaryObjects

/-! Proofs for C22: features and graphs. -/

namespace Verif.Binary

open Spec

variable {D : Type}

section
variable {env : Env D} {g : Graph D} {opt : Opt} {objects : List Nat}
  {enc : Enc → Option Nat → Check → Option (Enc × List (Tok D))}

/-- the name of a feature has been written -/
def markNamed (st : Enc) (c i : Nat) : Enc :=
  { st with named := fun c' i' => if c' = c ∧ i' = i then true else st.named c' i' }

theorem rel_named {st : Enc} {d d' : Dec D} (h : Rel env st d) (q k c i : Nat) (f : Feature)
    (hq : st.pkgs[q]? = some (env.pkg c)) (hk : (st.classes (env.pkg c))[k]? = some c) (hf : (env.features c)[i]? = some f)
    (hd : d' = { d with featAt := d'.featAt })
    (hfeat : ∀ q' k' i' : Nat, d'.featAt q' k' i' = if q' = q ∧ k' = k ∧ i' = i then some f else d.featAt q' k' i') :
    Rel env (markNamed st c i) d' := by
  obtain ⟨r1, r2, r3, r4, r5, r6, r7, r8, r9, r10, r11⟩ := h
  rw [hd]
  have hmem : c ∈ st.classes (env.pkg c) := List.mem_of_getElem? hk
  constructor
  · exact r1
  · exact r2
  · exact r3
  · exact r4
  · exact r5
  · exact r6
  · exact r7
  · intro i' p k' c' hp hk' j
    simp only [markNamed] at hp hk' ⊢
    rw [hfeat]
    by_cases hc : c' = c
    · subst hc
      have hpp : env.pkg c' = p := r5 p c' (List.mem_of_getElem? hk')
      subst hpp
      have e1 : i' = q := nodup_get r2 hp hq
      have e2 : k' = k := nodup_get (r6 _) hk' hk
      subst e1 e2
      by_cases hj : j = i
      · subst hj; simp [hf]
      · simp [hj, r8 i' _ k' c' hp hk' j]
    · rw [if_neg, r8 i' p k' c' hp hk' j]
      · simp [hc]
      · rintro ⟨rfl, rfl, -⟩
        rw [hq] at hp
        simp only [Option.some.injEq] at hp
        subst hp
        rw [hk] at hk'
        simp only [Option.some.injEq] at hk'
        exact hc hk'.symm
  · intro c' hc' j
    simp only [markNamed] at hc' ⊢
    rw [if_neg, r9 c' hc' j]
    rintro ⟨rfl, -⟩
    exact hc' hmem
  · exact r10
  · exact r11

/-- the name of the feature is read, or known -/
theorem featureOf_spec {st : Enc} {d : Dec D} (h : Rel env st d) (q k c i : Nat) (f : Feature) (rest : List (Tok D))
    (hq : st.pkgs[q]? = some (env.pkg c)) (hk : (st.classes (env.pkg c))[k]? = some c) (hf : (env.features c)[i]? = some f)
    (hname : f.name ≠ "") (hfind : env.findFeature c f.name = some f) :
    ∃ d' : Dec D, featureOf env d q k c i
        ((if f.name ≠ "" ∧ st.named c i = false then [Tok.str (D := D) f.name] else []) ++ rest) = some (f, d', rest) ∧
      Rel env (markNamed st c i) d' ∧ d'.objs = d.objs := by
  have hlen : i < (env.features c).length := by
    rcases Nat.lt_or_ge i (env.features c).length with h | h
    · exact h
    · simp [h] at hf
  have hfa := h.featAt q _ k c hq hk i
  cases hn : st.named c i
  · rw [hn] at hfa
    simp only [Bool.false_eq_true, if_false] at hfa
    refine ⟨{ d with featAt := fun q' k' i' => if q' = q ∧ k' = k ∧ i' = i then some f else d.featAt q' k' i' }, ?_,
      rel_named h q k c i f hq hk hf rfl (fun _ _ _ => rfl), rfl⟩
    simp only [featureOf, hfa]
    rw [if_neg (by omega)]
    simp [hname, decodeString, hfind]
  · rw [hn] at hfa
    simp only [if_true] at hfa
    refine ⟨d, ?_, rel_named h q k c i f hq hk hf rfl ?_, rfl⟩
    · simp only [featureOf, hfa, hf]
      rw [if_neg (by omega)]
      simp
    · intro q' k' i'
      split
      · rename_i hh
        obtain ⟨rfl, rfl, rfl⟩ := hh
        rw [hfa, hf]
      · rfl

/-- whether the feature is written -/
def written (opt : Opt) (check : Check) (f : Feature) : Prop :=
  isTransient opt.namespaces f = false ∧ (check = .container ∨ kindOf f ≠ .objectContainerProxy)

instance (opt : Opt) (check : Check) (f : Feature) : Decidable (written opt check f) := by
  unfold written; infer_instance

theorem ext_named (st : Enc) (c i : Nat) : Ext st (markNamed st c i) :=
  ⟨List.prefix_refl _, List.prefix_refl _, fun _ => List.prefix_refl _, id⟩

theorem setSlot_other (d : Dec D) (oi i j : Nat) (w : Val Nat D) (hj : j ≠ oi) :
    (setSlot d oi i w).objs[j]? = d.objs[j]? := by
  simp only [setSlot, List.getElem?_modify]
  have : ¬ oi = j := fun h => hj h.symm
  simp [this]

theorem features_spec (hv : Valid env g objects) (hg : Good env g opt objects enc) (check : Check) (o c : Nat)
    (ho : o ∈ objects) (hc : c = g.cls o) (fs : List Feature) (i0 : Nat) (st st' : Enc) (ts : List (Tok D))
    (he : encodeFeatures env g opt enc check o c i0 fs st = some (st', ts))
    (hall : ∀ j : Nat, fs[j]? = (env.features c)[i0 + j]?) :
    Ext st st' ∧ ∀ (d : Dec D) (rest : List (Tok D)) (fuel n oi q k : Nat) (copy : Copy D), Rel env st d →
      d.objs.length = st.objs.length → ts.length ≤ fuel → ts.length < n → d.objs[oi]? = some copy →
      st.pkgs[q]? = some (env.pkg c) → (st.classes (env.pkg c))[k]? = some c → (∀ j : Nat, i0 ≤ j → copy.slot j = none) →
      ∃ (id0 : Int) (ts0 : List (Tok D)) (d' : Dec D) (copy' : Copy D),
        ts ++ .int 0 :: rest = .int id0 :: ts0 ∧ 0 ≤ id0 ∧
        decodeFeatures env (decodeObject env fuel) oi q k c n id0 d ts0 = some (d', rest) ∧ Rel env st' d' ∧
        d'.objs.length = st'.objs.length ∧ (∀ j : Nat, j ≠ oi → j < d.objs.length → d'.objs[j]? = d.objs[j]?) ∧
        d'.objs[oi]? = some copy' ∧ copy'.cls = copy.cls ∧ copy'.proxy = copy.proxy ∧ copy'.id = copy.id ∧
        (∀ j : Nat, j < i0 → copy'.slot j = copy.slot j) ∧
        (∀ (j : Nat) (f : Feature), fs[j]? = some f → written opt check f →
          SameSlot st'.objs (g.slot o (i0 + j)) (copy'.slot (i0 + j))) ∧
        (∀ (j : Nat) (f : Feature), fs[j]? = some f → ¬ written opt check f → copy'.slot (i0 + j) = none) ∧
        (∀ j : Nat, fs[j]? = none → copy'.slot (i0 + j) = none) ∧
        Complete env g opt st st' d'.objs := by
  induction fs generalizing i0 st ts with
  | nil =>
    simp only [encodeFeatures, Option.some.injEq, Prod.mk.injEq] at he
    obtain ⟨rfl, rfl⟩ := he
    refine ⟨Ext.refl _, ?_⟩
    intro d rest fuel n oi q k copy h hlen hfu hn hcopy hq hk hslot
    refine ⟨0, rest, d, copy, by simp, by omega, ?_, h, hlen, fun _ _ _ => rfl, hcopy, rfl, rfl, rfl, fun _ _ => rfl, ?_, ?_, ?_,
      complete_self _ _ _ _ _ _ rfl⟩
    · cases n with
      | zero => simp at hn
      | succ n => simp [decodeFeatures]
    · intro j f hj; simp at hj
    · intro j f hj; simp at hj
    · intro j _; exact hslot _ (by omega)
  | cons f fs ih =>
    have hf0 : (env.features c)[i0]? = some f := by simpa using (hall 0).symm
    have hall' : ∀ j : Nat, fs[j]? = (env.features c)[i0 + 1 + j]? := by
      intro j
      have := hall (j + 1)
      simp only [List.getElem?_cons_succ] at this
      rw [this]
      congr 1
      omega
    by_cases hw : written opt check f
    · cases hslot0 : g.slot o i0 with
      | none =>
        -- nothing is written
        have hw' : isTransient opt.namespaces f = false ∧ (check = .container ∨ kindOf f ≠ .objectContainerProxy) := hw
        simp only [encodeFeatures, if_pos hw', encodeFeature, hslot0] at he
        split at he
        · simp at he
        rename_i st2 t2 h2
        simp only [List.nil_append, Option.some.injEq, Prod.mk.injEq] at he
        obtain ⟨rfl, rfl⟩ := he
        obtain ⟨a1, a2⟩ := ih (i0 + 1) st t2 h2 hall'
        refine ⟨a1, ?_⟩
        intro d rest fuel n oi q k copy h hlen hfu hn hcopy hq hk hslot
        obtain ⟨id0, ts0, d', copy', b1, b2, b3, b4, b5, b6, b7, b8, b9, b10, b11, b12, b13, b14, b15⟩ :=
          a2 d rest fuel n oi q k copy h hlen hfu hn hcopy hq hk (fun j hj => hslot j (by omega))
        refine ⟨id0, ts0, d', copy', b1, b2, b3, b4, b5, b6, b7, b8, b9, b10, fun j hj => b11 j (by omega), ?_, ?_, ?_, b15⟩
        · intro j f' hj hwf
          cases j with
          | zero => simp [hslot0, b11 i0 (by omega), hslot i0 (by omega), SameSlot]
          | succ j =>
            have := b12 j f' (by simpa using hj) hwf
            rwa [show i0 + 1 + j = i0 + (j + 1) by omega] at this
        · intro j f' hj hwf
          cases j with
          | zero => simp [b11 i0 (by omega), hslot i0 (by omega)]
          | succ j =>
            have := b13 j f' (by simpa using hj) hwf
            rwa [show i0 + 1 + j = i0 + (j + 1) by omega] at this
        · intro j hj
          cases j with
          | zero => simp at hj
          | succ j =>
            have := b14 j (by simpa using hj)
            rwa [show i0 + 1 + j = i0 + (j + 1) by omega] at this
      | some v =>
        have hw' : isTransient opt.namespaces f = false ∧ (check = .container ∨ kindOf f ≠ .objectContainerProxy) := hw
        simp only [encodeFeatures, if_pos hw', encodeFeature, hslot0] at he
        change (match (encodeValue env enc (markNamed st c i0) f (kindOf f) v).map fun r => (r.1,
          Tok.int (↑i0 + 1) :: (if f.name ≠ "" ∧ st.named c i0 = false then [Tok.str (D := D) f.name] else []) ++ r.2) with
          | none => none
          | some (st1, t1) =>
            match encodeFeatures env g opt enc check o c (i0 + 1) fs st1 with
            | none => none
            | some (st2, t2) => some (st2, t1 ++ t2)) = some (st', ts) at he
        cases hev : encodeValue env enc (markNamed st c i0) f (kindOf f) v with
        | none => simp [hev] at he
        | some r =>
          obtain ⟨st1, tv⟩ := r
          simp only [hev, Option.map_some] at he
          split at he
          · simp at he
          rename_i st2 t2 h2
          simp only [Option.some.injEq, Prod.mk.injEq] at he
          obtain ⟨rfl, rfl⟩ := he
          obtain ⟨fn1, fn2, -⟩ := hv.feature o ho f (by rw [← hc]; exact List.mem_of_getElem? hf0)
          rw [← hc] at fn2
          have hfits := hv.slots o ho i0 f (by rw [← hc]; exact hf0) v hslot0
          obtain ⟨c1, c2⟩ := value_spec hg f (markNamed st c i0) st1 tv v o i0 hev hfits ⟨by rw [← hc]; exact hf0, hslot0⟩
          obtain ⟨a1, a2⟩ := ih (i0 + 1) st1 t2 h2 hall'
          have ext1 : Ext st st1 := (ext_named st c i0).trans c1
          refine ⟨ext1.trans a1, ?_⟩
          intro d rest fuel n oi q k copy h hlen hfu hn hcopy hq hk hslot
          simp only [List.length_cons, List.length_append] at hfu hn
          obtain ⟨n, rfl⟩ : ∃ m, n = m + 1 := ⟨n - 1, by omega⟩
          obtain ⟨d1, e1, e2, e3⟩ := featureOf_spec h q k c i0 f (tv ++ (t2 ++ .int 0 :: rest)) hq hk hf0 fn1 fn2
          obtain ⟨w, d2, more, v1, v2, v3, v4, v5, v6⟩ := c2 d1 (t2 ++ .int 0 :: rest) fuel oi i0 e2 (by rw [e3]; exact hlen)
            (by omega)
          have hoi : oi < d.objs.length := by
            rcases Nat.lt_or_ge oi d.objs.length with h | h
            · exact h
            · simp [h] at hcopy
          have hcopy3 : (setSlot d2 oi i0 w).objs[oi]? =
              some { copy with slot := fun j => if j = i0 then some w else copy.slot j } := by
            simp only [setSlot, List.getElem?_modify, if_true]
            rw [v3, e3, List.getElem?_append_left hoi, hcopy]
            rfl
          obtain ⟨id0, ts0, d', copy', b1, b2, b3, b4, b5, b6, b7, b8, b9, b10, b11, b12, b13, b14, b15⟩ :=
            a2 (setSlot d2 oi i0 w) rest fuel n oi q k _ (setSlot_rel v2 oi i0 w)
              (by simp only [setSlot, List.length_modify]; exact v4) (by omega) (by omega) hcopy3
              (prefix_get ext1.pkgs hq) (prefix_get (ext1.classes _) hk)
              (fun j hj => by simp only; rw [if_neg (by omega)]; exact hslot j (by omega))
          have hlen2 : (setSlot d2 oi i0 w).objs.length = d2.objs.length := by simp [setSlot]
          have hslot' : copy'.slot i0 = some w := by
            have := b11 i0 (by omega)
            simpa using this
          refine ⟨i0 + 1, _, d', copy', rfl, by omega, ?_, b4, b5, ?_, b7, b8, b9, b10, ?_, ?_, ?_, ?_, ?_⟩
          · simp only [decodeFeatures]
            rw [if_neg (by omega), if_neg (by omega)]
            simp only [List.append_assoc, List.append_eq, List.cons_append,
              show ((i0 : Int) + 1 - 1).toNat = i0 by omega]
            rw [e1]
            simp only
            rw [v1]
            simp only [b1, decodeInt, b3]
          · intro j hj hjl
            rw [b6 j hj (by rw [hlen2, v3, e3, List.length_append]; omega)]
            rw [setSlot_other _ _ _ _ _ hj, v3, e3]
            exact List.getElem?_append_left hjl
          · intro j hj
            rw [b11 j (by omega)]
            simp only
            rw [if_neg (by omega)]
          · intro j f' hj hwf
            cases j with
            | zero =>
              simp only [Nat.add_zero, hslot0, hslot', SameSlot]
              exact sameVal_mono a1.objs v5
            | succ j =>
              have := b12 j f' (by simpa using hj) hwf
              rwa [show i0 + 1 + j = i0 + (j + 1) by omega] at this
          · intro j f' hj hwf
            cases j with
            | zero =>
              simp only [List.getElem?_cons_zero, Option.some.injEq] at hj
              subst hj
              exact absurd hw hwf
            | succ j =>
              have := b13 j f' (by simpa using hj) hwf
              rwa [show i0 + 1 + j = i0 + (j + 1) by omega] at this
          · intro j hj
            cases j with
            | zero => simp at hj
            | succ j =>
              have := b14 j (by simpa using hj)
              rwa [show i0 + 1 + j = i0 + (j + 1) by omega] at this
          · refine complete_trans (b := st1) (l := d2.objs) a1 v4 ?_ ?_ b15
            · intro j x hj hx
              exact v6 j x hj hx
            · intro j hj hj2
              rw [b6 j (by omega) (by rw [hlen2]; exact hj2)]
              exact setSlot_other _ _ _ _ _ (by omega)
    · -- the feature is left out
      have hw' : ¬ (isTransient opt.namespaces f = false ∧ (check = .container ∨ kindOf f ≠ .objectContainerProxy)) := hw
      simp only [encodeFeatures, if_neg hw'] at he
      obtain ⟨a1, a2⟩ := ih (i0 + 1) st ts he hall'
      refine ⟨a1, ?_⟩
      intro d rest fuel n oi q k copy h hlen hfu hn hcopy hq hk hslot
      obtain ⟨id0, ts0, d', copy', b1, b2, b3, b4, b5, b6, b7, b8, b9, b10, b11, b12, b13, b14, b15⟩ :=
        a2 d rest fuel n oi q k copy h hlen hfu hn hcopy hq hk (fun j hj => hslot j (by omega))
      refine ⟨id0, ts0, d', copy', b1, b2, b3, b4, b5, b6, b7, b8, b9, b10, fun j hj => b11 j (by omega), ?_, ?_, ?_, b15⟩
      · intro j f' hj hwf
        cases j with
        | zero =>
          simp only [List.getElem?_cons_zero, Option.some.injEq] at hj
          subst hj
          exact absurd hwf hw
        | succ j =>
          have := b12 j f' (by simpa using hj) hwf
          rwa [show i0 + 1 + j = i0 + (j + 1) by omega] at this
      · intro j f' hj hwf
        cases j with
        | zero => simp [b11 i0 (by omega), hslot i0 (by omega)]
        | succ j =>
          have := b13 j f' (by simpa using hj) hwf
          rwa [show i0 + 1 + j = i0 + (j + 1) by omega] at this
      · intro j hj
        cases j with
        | zero => simp at hj
        | succ j =>
          have := b14 j (by simpa using hj)
          rwa [show i0 + 1 + j = i0 + (j + 1) by omega] at this

/-! ### Objects -/

theorem reference_some (hv : Valid env g objects) (check : Check) (x : Nat) (u : Option URI)
    (h : reference g opt x check = some u) (hr : Reason env g objects check x) :
    ∃ v : URI, u = some v ∧ Readable env v.path ∧ uriOf g x v ∧ Foreign env g opt x := by
  cases check with
  | nothing => simp [reference] at h
  | container => simp [reference] at h
  | resource =>
    simp only [reference] at h
    split at h
    · rename_i v hp
      simp only [Option.some.injEq] at h
      exact ⟨v, h.symm, hv.proxyURI x hr.1 v hp, .inl hp, .inl (by simp [hp])⟩
    · rename_i hp
      split at h
      · rename_i r hres
        split at h
        · rename_i hcond
          simp only [Option.some.injEq] at h
          obtain ⟨p, hpu, hread⟩ := hv.resURI x hr.1 r (.inl hres)
          rw [hpu] at h
          exact ⟨⟨p, g.fragment x⟩, h.symm, hread, .inr ⟨hp, r, p, .inl hres, hpu, rfl⟩, .inr (.inl ⟨r, hres, hcond⟩)⟩
        · simp at h
      · simp at h
  | directResource =>
    simp only [reference] at h
    split at h
    · rename_i v hp
      simp only [Option.some.injEq] at h
      exact ⟨v, h.symm, hv.proxyURI x hr.1 v hp, .inl hp, .inl (by simp [hp])⟩
    · rename_i hp
      split at h
      · rename_i r hres
        simp only [Option.some.injEq] at h
        obtain ⟨p, hpu, hread⟩ := hv.resURI x hr.1 r (.inr hres)
        rw [hpu] at h
        exact ⟨⟨p, g.fragment x⟩, h.symm, hread, .inr ⟨hp, r, p, .inr hres, hpu, rfl⟩, .inr (.inr ⟨by simp [hres], hr.2⟩)⟩
      · simp at h

theorem reference_none (check : Check) (x : Nat) (h : reference g opt x check = none) (hr : Reason env g objects check x) :
    g.proxy x = none := by
  cases check with
  | nothing => exact hr.2
  | container => exact hr.2
  | resource =>
    simp only [reference] at h
    split at h
    · simp at h
    · assumption
  | directResource =>
    simp only [reference] at h
    split at h
    · simp at h
    · assumption

theorem written_kept (f : Feature) (check : Check) (hf : f.container = true → f.containment = false ∧
      (f.resolveProxies = true ∨ ¬ (f.xmlName = "xmlns:prefix" ∨ f.xmlName = "xsi:schemaLocation"))) :
    (¬ isParent f → isKept opt f → written opt check f) ∧ (¬ isKept opt f → ¬ written opt check f) := by
  have hx : (f.xmlName == "xmlns:prefix" || f.xmlName == "xsi:schemaLocation") = true ↔
      (f.xmlName = "xmlns:prefix" ∨ f.xmlName = "xsi:schemaLocation") := by simp
  constructor
  · intro hp hk
    simp only [isParent] at hp
    simp only [isKept] at hk
    constructor
    · simp only [isTransient, Bool.and_eq_true, hx]
      split
      · rfl
      · rename_i hn
        have ht : f.transient = false := by
          rcases hk with hk | hk
          · exact hk
          · exact absurd hk hn
        cases hr : f.isReference
        · simp [ht]
        · cases hc : f.container
          · simp [ht]
          · have := (hf hc).1
            exact absurd ⟨hr, this, hc⟩ hp
    · right
      intro hkind
      simp only [kindOf] at hkind
      cases hr : f.isReference
      · rw [hr] at hkind
        simp only [Bool.false_eq_true, if_false] at hkind
        split at hkind
        · simp at hkind
        · split at hkind
          · simp at hkind
          · rcases basicOf_cases f.typeName with h | ⟨t, h⟩ <;> simp [h] at hkind
      · rw [hr] at hkind
        cases hcm : f.containment <;> cases hc : f.container <;> cases hm : f.many <;> cases hrp : f.resolveProxies <;>
          simp [hcm, hc, hm, hrp, hr] at hkind hp
  · intro hk hw
    apply hk
    simp only [isKept]
    have := hw.1
    simp only [isTransient, Bool.and_eq_true, hx] at this
    split at this
    · rename_i h; exact .inr h
    · left
      split at this
      · simp at this; exact this.1
      · exact this

theorem id_spec (g : Graph D) (opt : Opt) (x : Nat) : ∃ i : Option Nat, i = (if opt.ids = true then g.id x else none) ∧
    ∀ (id0 : Int) (ts0 : List (Tok D)), 0 ≤ id0 → ∃ (id1 : Int) (ts1 : List (Tok D)),
      encodeID g opt x ++ (.int id0 :: ts0) = .int id1 :: ts1 ∧ id1 ≠ -2 ∧ decodeID id1 ts1 = some (i, id0, ts0) := by
  refine ⟨_, rfl, ?_⟩
  intro id0 ts0 h0
  cases hi : opt.ids
  · refine ⟨id0, ts0, by simp [encodeID, hi], by omega, ?_⟩
    simp only [decodeID]
    rw [if_neg (by omega)]
    simp
  · cases hx : g.id x with
    | none =>
      refine ⟨id0, ts0, by simp [encodeID, hi, hx], by omega, ?_⟩
      simp only [decodeID]
      rw [if_neg (by omega)]
      simp
    | some j =>
      exact ⟨-1, .any j :: .int id0 :: ts0, by simp [encodeID, hi, hx], by omega, by simp [decodeID]⟩

/-- an object that is written with its features is read as one that is no proxy -/
theorem root_spec (hv : Valid env g objects) (n : Nat) (st st' : Enc) (x : Nat) (ts : List (Tok D))
    (he : encodeObject env g opt n st (some x) .container = some (st', ts)) (hr : Reason env g objects .container x)
    (hg : ∀ m : Nat, Good env g opt objects (encodeObject env g opt m)) (hm : x ∉ st.objs)
    (d : Dec D) (rest : List (Tok D)) (fuel : Nat) (h : Rel env st d) (hlen : d.objs.length = st.objs.length)
    (hfu : ts.length ≤ fuel) :
    ∃ (d' : Dec D) (c : Copy D), decodeObject env fuel d (ts ++ rest) = some (some d.objs.length, d', rest) ∧
      d'.objs[d.objs.length]? = some c ∧ c.proxy = none := by
  cases n with
  | zero => simp [encodeObject] at he
  | succ n =>
    simp only [encodeObject, hm, if_false, reference] at he
    split at he
    · simp at he
    rename_i st1 t1 hcl
    have hmem := hr.1
    obtain ⟨x1, x2, x3⟩ := class_spec env _ st1 t1 (g.cls x) hcl (hv.registered x hmem) (hv.pkgURI x hmem) (hv.found x hmem)
    simp only at x2
    split at he
    · simp at he
    rename_i st2 t2 hfe
    simp only [Option.some.injEq, Prod.mk.injEq] at he
    obtain ⟨rfl, rfl⟩ := he
    obtain ⟨f1, f2⟩ := features_spec hv (hg n) .container x (g.cls x) hmem rfl (env.features (g.cls x)) 0 st1 st2 t2 hfe (by simp)
    simp only [List.length_append, List.length_cons, List.length_nil] at hfu
    obtain ⟨fuel, rfl⟩ : ∃ m, fuel = m + 1 := ⟨fuel - 1, by omega⟩
    have h' : Rel env { st with objs := st.objs ++ [x] } d := rel_objs h (st.objs ++ [x]) d.objs
    obtain ⟨q, k, d1, y1, y2, y3, y4, y5⟩ := x3 d (encodeID g opt x ++ (t2 ++ .int 0 :: rest)) h'
    obtain ⟨i, hi, hid⟩ := id_spec (D := D) g opt x
    obtain ⟨id0, ts0, d', copy', b1, b2, b3, b4, b5, b6, b7, b8, b9, b10, b11, b12, b13, b14, b15⟩ :=
      f2 { d1 with objs := d1.objs ++ [{ cls := g.cls x, proxy := none, id := i }] } rest fuel fuel d1.objs.length q k
        { cls := g.cls x, proxy := none, id := i } (rel_objs_dec y2 _) (by simp [y3, hlen, x2]) (by omega) (by omega)
        (by simp) y4 y5 (fun _ _ => rfl)
    obtain ⟨id1, ts1, k1, k2, k3⟩ := hid id0 ts0 b2
    refine ⟨d', copy', ?_, by rw [← y3]; exact b7, b9⟩
    simp only [List.cons_append, List.append_assoc, List.nil_append, decodeObject, decodeInt]
    rw [if_neg (by omega), if_pos (by omega), y1]
    simp only [b1, k1, decodeInt, decodeProxy]
    rw [if_neg k2]
    simp only [k3]
    rw [b3]
    simp [y3]

theorem object_spec (hv : Valid env g objects) (n : Nat) : Good env g opt objects (encodeObject env g opt n) := by
  induction n with
  | zero =>
    intro st st' o check ts he
    simp [encodeObject] at he
  | succ n ih =>
    intro st st' o check ts he hr
    cases o with
    | none =>
      simp only [encodeObject, Option.some.injEq, Prod.mk.injEq] at he
      obtain ⟨rfl, rfl⟩ := he
      refine ⟨Ext.refl _, by simp, ?_⟩
      intro d rest fuel h hlen hfu
      obtain ⟨fuel, rfl⟩ : ∃ m, fuel = m + 1 := ⟨fuel - 1, by simp at hfu; omega⟩
      exact ⟨none, d, [], by simp [decodeObject, decodeInt], h, by simp, hlen, trivial, complete_self _ _ _ _ _ _ rfl⟩
    | some x =>
      have hrx := hr x rfl
      by_cases hm : x ∈ st.objs
      · simp only [encodeObject, hm, if_true, Option.some.injEq, Prod.mk.injEq] at he
        obtain ⟨rfl, rfl⟩ := he
        refine ⟨Ext.refl _, by simp, ?_⟩
        intro d rest fuel h hlen hfu
        obtain ⟨fuel, rfl⟩ : ∃ m, fuel = m + 1 := ⟨fuel - 1, by simp at hfu; omega⟩
        have hlt := List.idxOf_lt_length_iff.2 hm
        refine ⟨some (st.objs.idxOf x), d, [], ?_, h, by simp, hlen, getElem?_idxOf hm, complete_self _ _ _ _ _ _ rfl⟩
        simp only [List.cons_append, List.nil_append, decodeObject, decodeInt]
        rw [if_neg (by omega), if_neg (by omega), if_neg (by omega)]
        simp
      · simp only [encodeObject, hm, if_false] at he
        split at he
        · simp at he
        rename_i st1 t1 hcl
        have hmem := hrx.1
        obtain ⟨x1, x2, x3⟩ := class_spec env _ st1 t1 (g.cls x) hcl (hv.registered x hmem) (hv.pkgURI x hmem) (hv.found x hmem)
        simp only at x2
        have ext0 : Ext st { st with objs := st.objs ++ [x] } :=
          ⟨List.prefix_append _ _, List.prefix_refl _, fun _ => List.prefix_refl _, fun h =>
            List.nodup_append.2 ⟨h, by simp, by intro a ha b hb; simp at hb; rintro rfl; exact hm (hb ▸ ha)⟩⟩
        split at he
        · -- a reference
          rename_i u href
          obtain ⟨v, rfl, hread, huri, hfor⟩ := reference_some hv check x u href hrx
          obtain ⟨l, u1, u2, u3⟩ := uri_spec env st1 (some v) (fun y hy => by simp at hy; subst hy; exact hread)
          simp only [Option.some.injEq, Prod.mk.injEq] at he
          obtain ⟨rfl, rfl⟩ := he
          rw [u1]
          refine ⟨(ext0.trans x1).trans ⟨List.prefix_refl _, List.prefix_refl _, fun _ => List.prefix_refl _, id⟩, by simp, ?_⟩
          intro d rest fuel h hlen hfu
          simp only [List.length_append, List.length_cons, List.length_nil] at hfu
          obtain ⟨fuel, rfl⟩ : ∃ m, fuel = m + 2 := ⟨fuel - 2, by omega⟩
          have h' : Rel env { st with objs := st.objs ++ [x] } d := rel_objs h (st.objs ++ [x]) d.objs
          obtain ⟨q, k, d1, y1, y2, y3, y4, y5⟩ :=
            x3 d (.int (-2) :: ((encodeURI env st1 (some v)).2 ++ .int 0 :: rest)) h'
          have hu := u3 d1 (.int 0 :: rest) y2.uris
          refine ⟨some d.objs.length, { d1 with uris := l, objs := d1.objs ++ [{ cls := g.cls x, proxy := some v, id := none }] },
            [{ cls := g.cls x, proxy := some v, id := none }], ?_, ?_, by simp [y3], ?_, ?_, ?_⟩
          · simp only [List.cons_append, List.append_assoc, List.nil_append, decodeObject, decodeInt]
            rw [if_neg (by omega), if_pos (by omega), y1]
            simp only [decodeProxy, if_true, hu, decodeInt, decodeID]
            rw [if_neg (by omega)]
            simp [decodeFeatures, y3]
          · exact rel_objs (rel_uris y2 l) st1.objs _
          · simp [y3, hlen, x2]
          · simp [SameRef, x2, hlen]
          · intro j y hj hy
            simp only [x2] at hy ⊢
            have hjj : j = st.objs.length := by
              rcases Nat.lt_or_ge st.objs.length j with h | h
              · rw [List.getElem?_eq_none (by simp; omega)] at hy; simp at hy
              · omega
            subst hjj
            simp only [List.getElem?_concat_length, Option.some.injEq] at hy
            subst hy
            refine ⟨{ cls := g.cls x, proxy := some v, id := none }, by rw [y3, ← hlen]; simp, .inr ⟨hfor, rfl, ⟨v, huri, rfl⟩, fun _ => rfl⟩⟩
        · -- the features
          rename_i href
          have hnp := reference_none check x href hrx
          split at he
          · simp at he
          rename_i st2 t2 hfe
          simp only [Option.some.injEq, Prod.mk.injEq] at he
          obtain ⟨rfl, rfl⟩ := he
          obtain ⟨f1, f2⟩ := features_spec hv ih check x (g.cls x) hmem rfl (env.features (g.cls x)) 0 st1 st2 t2 hfe (by simp)
          refine ⟨(ext0.trans x1).trans f1, by simp, ?_⟩
          intro d rest fuel h hlen hfu
          simp only [List.length_append, List.length_cons, List.length_nil] at hfu
          obtain ⟨fuel, rfl⟩ : ∃ m, fuel = m + 1 := ⟨fuel - 1, by omega⟩
          have h' : Rel env { st with objs := st.objs ++ [x] } d := rel_objs h (st.objs ++ [x]) d.objs
          obtain ⟨q, k, d1, y1, y2, y3, y4, y5⟩ := x3 d (encodeID g opt x ++ (t2 ++ .int 0 :: rest)) h'
          obtain ⟨i, hi, hid⟩ := id_spec (D := D) g opt x
          obtain ⟨id0, ts0, d', copy', b1, b2, b3, b4, b5, b6, b7, b8, b9, b10, b11, b12, b13, b14, b15⟩ :=
            f2 { d1 with objs := d1.objs ++ [{ cls := g.cls x, proxy := none, id := i }] } rest fuel fuel d1.objs.length q k
              { cls := g.cls x, proxy := none, id := i } (rel_objs_dec y2 _) (by simp [y3, hlen, x2]) (by omega) (by omega)
              (by simp) y4 y5 (fun _ _ => rfl)
          obtain ⟨id1, ts1, k1, k2, k3⟩ := hid id0 ts0 b2
          have hpre : ∀ j : Nat, j < d.objs.length → d'.objs[j]? = d.objs[j]? := by
            intro j hj
            rw [b6 j (by rw [y3]; omega) (by simp [y3]; omega)]
            simp only [y3]
            exact List.getElem?_append_left hj
          have hlen' : d'.objs.length = st2.objs.length := b5
          have hpfx : st1.objs.length ≤ st2.objs.length := f1.objs.length_le
          refine ⟨some d.objs.length, d', d'.objs.drop d.objs.length, ?_, b4, ?_, b5, ?_, ?_⟩
          · simp only [List.cons_append, List.append_assoc, List.nil_append, decodeObject, decodeInt]
            rw [if_neg (by omega), if_pos (by omega), y1]
            simp only [b1, k1, decodeInt, decodeProxy]
            rw [if_neg k2]
            simp only [k3]
            rw [b3]
            simp [y3]
          · apply List.ext_getElem?
            intro j
            rcases Nat.lt_or_ge j d.objs.length with hj | hj
            · rw [hpre j hj, List.getElem?_append_left hj]
            · rw [List.getElem?_append_right hj, List.getElem?_drop]
              congr 1
              omega
          · simp only [SameRef]
            apply prefix_get f1.objs
            rw [x2, hlen]
            simp
          · intro j y hj hy
            by_cases hjj : j = st.objs.length
            · subst hjj
              have : y = x := by
                have hx : st2.objs[st.objs.length]? = some x := by
                  apply prefix_get f1.objs
                  rw [x2]; simp
                rw [hx] at hy
                simpa using hy.symm
              subst this
              refine ⟨copy', by rw [← hlen, ← y3]; exact b7, .inl ?_⟩
              simp only [Nat.zero_add] at b12 b13 b14
              refine ⟨b8, ⟨hnp, b9⟩, by rw [b10, hi], ?_, ?_, ?_, b14⟩
              · intro j f hjf hp hk
                exact b12 j f hjf ((written_kept f check (hv.feature y hmem f (List.mem_of_getElem? hjf)).2.2).1 hp hk)
              · intro j f hjf _
                by_cases hw : written opt check f
                · exact .inl (b12 j f hjf hw)
                · exact .inr (b13 j f hjf hw)
              · intro j f hjf hk
                exact b13 j f hjf ((written_kept f check (hv.feature y hmem f (List.mem_of_getElem? hjf)).2.2).2 hk)
            · exact b15 j y (by rw [x2]; simp; omega) hy

end

end Verif.Binary
