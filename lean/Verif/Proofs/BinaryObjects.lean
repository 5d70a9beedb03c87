import Verif.Proofs.Binary

/-! Proofs for C22: objects. -/

namespace Verif.Binary

open Spec

variable {D : Type}

/-! ### Copies -/

theorem sameRef_mono {a b : List Nat} (h : a <+: b) {o i : Option Nat} (hs : SameRef a o i) : SameRef b o i := by
  cases o <;> cases i <;> simp_all only [SameRef]
  exact prefix_get h hs

theorem sameVal_mono {a b : List Nat} (h : a <+: b) {v w : Val Nat D} (hs : SameVal a v w) : SameVal b v w := by
  cases v <;> cases w <;> simp_all only [SameVal]
  · exact sameRef_mono h hs
  · exact hs.imp fun _ _ => sameRef_mono h

theorem sameSlot_mono {a b : List Nat} (h : a <+: b) {v w : Option (Val Nat D)} (hs : SameSlot a v w) : SameSlot b v w := by
  cases v <;> cases w <;> simp_all only [SameSlot]
  exact sameVal_mono h hs

/-- the copy of the object -/
def Saved (env : Env D) (g : Graph D) (opt : Opt) (objs : List Nat) (o : Nat) (c : Copy D) : Prop :=
  FullCopy env g opt objs o c ∨ Foreign env g opt o ∧ ProxyCopy g o c

theorem saved_mono {env : Env D} {g : Graph D} {opt : Opt} {a b : List Nat} (h : a <+: b) {o : Nat} {c : Copy D}
    (hs : Saved env g opt a o c) : Saved env g opt b o c := by
  rcases hs with hs | hs
  · left
    exact ⟨hs.cls, hs.proxy, hs.id, fun i f x y z => sameSlot_mono h (hs.kept i f x y z),
      fun i f x y => (hs.parent i f x y).imp (sameSlot_mono h) id, hs.dropped, hs.nothing⟩
  · exact .inr hs

/-- the objects written since `st` are complete -/
def Complete (env : Env D) (g : Graph D) (opt : Opt) (st st' : Enc) (copies : List (Copy D)) : Prop :=
  ∀ (j o : Nat), st.objs.length ≤ j → st'.objs[j]? = some o → ∃ c : Copy D, copies[j]? = some c ∧ Saved env g opt st'.objs o c

/-- why an object is written with a check -/
def Reason (env : Env D) (g : Graph D) (objects : List Nat) (check : Check) (x : Nat) : Prop :=
  x ∈ objects ∧
    match check with
    | .nothing => g.proxy x = none
    | .container => g.proxy x = none
    | .resource => True
    | .directResource => ∃ (y i : Nat) (f : Feature) (v : Val Nat D), (env.features (g.cls y))[i]? = some f ∧
      f.containment = true ∧ f.resolveProxies = true ∧ g.slot y i = some v ∧ Holds v x

/-- what a call of `encodeObject` writes is read -/
def Good (env : Env D) (g : Graph D) (opt : Opt) (objects : List Nat)
    (enc : Enc → Option Nat → Check → Option (Enc × List (Tok D))) : Prop :=
  ∀ (st st' : Enc) (o : Option Nat) (check : Check) (ts : List (Tok D)), enc st o check = some (st', ts) →
    (∀ x : Nat, o = some x → Reason env g objects check x) →
    Ext st st' ∧ ts ≠ [] ∧ ∀ (d : Dec D) (rest : List (Tok D)) (fuel : Nat), Rel env st d → d.objs.length = st.objs.length →
      ts.length ≤ fuel →
      ∃ (r : Option Nat) (d' : Dec D) (more : List (Copy D)), decodeObject env fuel d (ts ++ rest) = some (r, d', rest) ∧
        Rel env st' d' ∧ d'.objs = d.objs ++ more ∧ d'.objs.length = st'.objs.length ∧ SameRef st'.objs o r ∧
        Complete env g opt st st' d'.objs

theorem complete_trans {env : Env D} {g : Graph D} {opt : Opt} {a b c : Enc} {l m : List (Copy D)} (hbc : Ext b c)
    (hlen : l.length = b.objs.length) (h1 : Complete env g opt a b l)
    (hkeep : ∀ j : Nat, a.objs.length ≤ j → j < l.length → m[j]? = l[j]?) (h2 : Complete env g opt b c m) :
    Complete env g opt a c m := by
  intro j o hj ho
  by_cases hb : b.objs.length ≤ j
  · exact h2 j o hb ho
  · have hjb : j < b.objs.length := by omega
    have : b.objs[j]? = some o := by
      obtain ⟨t, ht⟩ := hbc.objs
      rw [← ht, List.getElem?_append_left hjb] at ho
      exact ho
    obtain ⟨c, x, y⟩ := h1 j o hj this
    exact ⟨c, by rw [hkeep j hj (by omega)]; exact x, saved_mono hbc.objs y⟩

theorem complete_self (env : Env D) (g : Graph D) (opt : Opt) (st st' : Enc) (l : List (Copy D)) (h : st'.objs = st.objs) :
    Complete env g opt st st' l := by
  intro j o hj ho
  rw [h, List.getElem?_eq_none hj] at ho
  simp at ho

section
variable {env : Env D} {g : Graph D} {opt : Opt} {objects : List Nat}
  {enc : Enc → Option Nat → Check → Option (Enc × List (Tok D))}

/-! ### Lists of objects -/

theorem objects_spec (hg : Good env g opt objects enc) (check : Check) (l : List (Option Nat)) (st st' : Enc)
    (ts : List (Tok D)) (he : encodeObjects enc check st l = some (st', ts))
    (hl : ∀ x : Nat, some x ∈ l → Reason env g objects check x) :
    Ext st st' ∧ ∀ (d : Dec D) (rest : List (Tok D)) (fuel : Nat), Rel env st d → d.objs.length = st.objs.length →
      ts.length ≤ fuel →
      ∃ (r : List (Option Nat)) (d' : Dec D) (more : List (Copy D)),
        decodeObjects (decodeObject env fuel) l.length d (ts ++ rest) = some (r, d', rest) ∧
        Rel env st' d' ∧ d'.objs = d.objs ++ more ∧ d'.objs.length = st'.objs.length ∧
        List.Forall₂ (SameRef st'.objs) l r ∧ Complete env g opt st st' d'.objs := by
  induction l generalizing st ts with
  | nil =>
    simp only [encodeObjects, Option.some.injEq, Prod.mk.injEq] at he
    obtain ⟨rfl, rfl⟩ := he
    refine ⟨Ext.refl _, ?_⟩
    intro d rest fuel h hlen _
    exact ⟨[], d, [], rfl, h, by simp, hlen, .nil, complete_self _ _ _ _ _ _ rfl⟩
  | cons o os ih =>
    simp only [encodeObjects] at he
    split at he
    · simp at he
    · rename_i st1 t1 h1
      split at he
      · simp at he
      · rename_i st2 t2 h2
        simp only [Option.some.injEq, Prod.mk.injEq] at he
        obtain ⟨rfl, rfl⟩ := he
        obtain ⟨a1, -, a3⟩ := hg st st1 o check t1 h1 (fun x hx => hl x (by simp [hx]))
        obtain ⟨b1, b2⟩ := ih st1 t2 h2 (fun x hx => hl x (by simp [hx]))
        refine ⟨a1.trans b1, ?_⟩
        intro d rest fuel h hlen hfuel
        simp only [List.length_append] at hfuel
        obtain ⟨r, d1, m1, c1, c2, c3, c4, c5, c6⟩ := a3 d (t2 ++ rest) fuel h hlen (by omega)
        obtain ⟨rs, d2, m2, e1, e2, e3, e4, e5, e6⟩ := b2 d1 rest fuel c2 c4 (by omega)
        refine ⟨r :: rs, d2, m1 ++ m2, ?_, e2, by rw [e3, c3, List.append_assoc], e4, .cons (sameRef_mono b1.objs c5) e5, ?_⟩
        · simp only [decodeObjects, List.length_cons, List.append_assoc, c1, e1]
        · refine complete_trans b1 c4 c6 ?_ e6
          intro j hj hj2
          rw [e3, List.getElem?_append_left hj2]

theorem decodeStrings_spec (l : List String) (rest : List (Tok D)) :
    decodeStrings l.length (l.map (Tok.str (D := D)) ++ rest) = some (l, rest) := by
  induction l with
  | nil => rfl
  | cons s l ih => simp [decodeStrings, decodeString, ih]

/-! ### Values -/

theorem setSlot_rel {st : Enc} {d : Dec D} (h : Rel env st d) (o i : Nat) (v : Val Nat D) : Rel env st (setSlot d o i v) :=
  rel_objs_dec h _

/-- the conclusion for a value -/
def ValueOk (env : Env D) (g : Graph D) (opt : Opt) (st st' : Enc) (ts : List (Tok D)) (f : Feature) (v : Val Nat D) : Prop :=
  Ext st st' ∧ ∀ (d : Dec D) (rest : List (Tok D)) (fuel o i : Nat), Rel env st d → d.objs.length = st.objs.length →
    ts.length ≤ fuel →
    ∃ (w : Val Nat D) (d' : Dec D) (more : List (Copy D)),
      decodeValue env (decodeObject env fuel) d o i f (ts ++ rest) = some (setSlot d' o i w, rest) ∧
      Rel env st' d' ∧ d'.objs = d.objs ++ more ∧ d'.objs.length = st'.objs.length ∧ SameVal st'.objs v w ∧
      Complete env g opt st st' d'.objs

theorem value_obj (hg : Good env g opt objects enc) (f : Feature) (st st' : Enc) (ts : List (Tok D)) (x : Nat) (check : Check)
    (he : enc st (some x) check = some (st', ts)) (hr : Reason env g objects check x)
    (hk : kindOf f ∈ [Kind.objectContainer, .objectContainerProxy, .object, .objectProxy, .objectContainment,
      .objectContainmentProxy]) :
    ValueOk env g opt st st' ts f (.obj (some x)) := by
  obtain ⟨a1, -, a3⟩ := hg st st' (some x) check ts he (fun y hy => by simp at hy; subst hy; exact hr)
  refine ⟨a1, ?_⟩
  intro d rest fuel o i h hlen hfuel
  obtain ⟨r, d1, m1, c1, c2, c3, c4, c5, c6⟩ := a3 d rest fuel h hlen hfuel
  refine ⟨.obj r, d1, m1, ?_, c2, c3, c4, c5, c6⟩
  simp only [List.mem_cons, List.not_mem_nil, or_false] at hk
  rcases hk with hk | hk | hk | hk | hk | hk <;> simp only [decodeValue, hk, c1]

theorem value_objs (hg : Good env g opt objects enc) (f : Feature) (st st' : Enc) (ts : List (Tok D)) (l : List (Option Nat))
    (check : Check)
    (he : (encodeObjects enc check st l).map (fun r => (r.1, Tok.int (D := D) l.length :: r.2)) = some (st', ts))
    (hr : ∀ x : Nat, some x ∈ l → Reason env g objects check x)
    (hk : kindOf f ∈ [Kind.objectList, .objectListProxy, .objectContainmentList, .objectContainmentListProxy]) :
    ValueOk env g opt st st' ts f (.objs l) := by
  cases hq : encodeObjects enc check st l with
  | none => simp [hq] at he
  | some q =>
    obtain ⟨st1, t1⟩ := q
    simp only [hq, Option.map_some, Option.some.injEq, Prod.mk.injEq] at he
    obtain ⟨rfl, rfl⟩ := he
    obtain ⟨a1, a3⟩ := objects_spec hg check l st st1 t1 hq hr
    refine ⟨a1, ?_⟩
    intro d rest fuel o i h hlen hfuel
    simp only [List.length_cons] at hfuel
    obtain ⟨r, d1, m1, c1, c2, c3, c4, c5, c6⟩ := a3 d rest fuel h hlen (by omega)
    refine ⟨.objs r, d1, m1, ?_, c2, c3, c4, c5, c6⟩
    simp only [List.mem_cons, List.not_mem_nil, or_false] at hk
    have hneg : ¬ ((l.length : Int) < 0) := by omega
    rcases hk with hk | hk | hk | hk <;>
      simp only [decodeValue, hk, List.cons_append, decodeInt, hneg, if_false, Int.toNat_natCast, c1]

theorem fits_cases {f : Feature} {v : Val Nat D} (h : Fits env g objects f v) :
    (∃ x : Nat, v = .obj (some x) ∧ f.isReference = true ∧ (f.many = false ∨ f.containment = false ∧ f.container = true) ∧
      x ∈ objects ∧ (f.resolveProxies = false → g.proxy x = none)) ∨
    (∃ l : List (Option Nat), v = .objs l ∧ f.isReference = true ∧ f.many = true ∧ (f.containment = true ∨ f.container = false) ∧
      ∀ x : Nat, some x ∈ l → x ∈ objects ∧ (f.resolveProxies = false → g.proxy x = none)) ∨
    (∃ w : D, v = .data w ∧ f.isReference = false ∧ f.many = false ∧
      match kindOf f with
      | .basic t => env.wire t w = some w
      | _ => env.fromText f.dataType (env.toText f.dataType w) = w) ∨
    (∃ l : List D, v = .datas l ∧ f.isReference = false ∧ f.many = true ∧
      ∀ w ∈ l, env.fromText f.dataType (env.toText f.dataType w) = w) := by
  cases v with
  | obj o =>
    obtain ⟨a, b, x, rfl, c⟩ := h
    exact .inl ⟨x, rfl, a, b, c⟩
  | objs l => exact .inr (.inl ⟨l, rfl, h⟩)
  | data w => exact .inr (.inr (.inl ⟨w, rfl, h⟩))
  | datas l => exact .inr (.inr (.inr ⟨l, rfl, h⟩))

theorem kind_pick {c : Prop} [Decidable c] (t : Basic) {k : Kind} (h : k = .data ∨ ∃ t : Basic, k = .basic t) :
    (if c then Kind.basic t else k) = .data ∨ ∃ t' : Basic, (if c then Kind.basic t else k) = .basic t' := by
  split
  · exact .inr ⟨_, rfl⟩
  · exact h

theorem basicOf_cases (s : String) : basicOf s = .data ∨ ∃ t : Basic, basicOf s = .basic t :=
  kind_pick _ (kind_pick _ (kind_pick _ (kind_pick _ (kind_pick _ (kind_pick _ (kind_pick _ (kind_pick _ (kind_pick _
    (kind_pick _ (kind_pick _ (.inl rfl)))))))))))

theorem kind_data {f : Feature} (h : f.isReference = false) (hm : f.many = false) :
    kindOf f = .enum ∨ kindOf f = .data ∨ ∃ t : Basic, kindOf f = .basic t := by
  simp only [kindOf, h, hm, Bool.false_eq_true, if_false]
  split
  · exact .inl rfl
  · right
    exact basicOf_cases _

theorem value_spec (hg : Good env g opt objects enc) (f : Feature) (st st' : Enc) (ts : List (Tok D)) (v : Val Nat D) (y i : Nat)
    (he : encodeValue env enc st f (kindOf f) v = some (st', ts)) (hf : Fits env g objects f v)
    (hslot : (env.features (g.cls y))[i]? = some f ∧ g.slot y i = some v) :
    ValueOk env g opt st st' ts f v := by
  rcases fits_cases hf with ⟨x, rfl, h1, h2, h3, h4⟩ | ⟨l, rfl, h1, h2, h3, h4⟩ | ⟨w, rfl, h1, h2, h3⟩ | ⟨l, rfl, h1, h2, h3⟩
  · have hd : f.containment = true → f.resolveProxies = true → Reason env g objects .directResource x :=
      fun a b => ⟨h3, y, i, f, _, hslot.1, a, b, hslot.2, rfl⟩
    have hn : f.resolveProxies = false → Reason env g objects .nothing x := fun a => ⟨h3, h4 a⟩
    have hr : Reason env g objects .resource x := ⟨h3, trivial⟩
    cases hc : f.containment <;> cases hco : f.container <;> cases hrp : f.resolveProxies <;> cases hm : f.many <;>
      simp [kindOf, h1, hc, hco, hrp, hm, encodeValue] at he <;> simp [hc, hco, hm] at h2 <;>
      first
        | exact value_obj hg f st st' ts x _ he (hn hrp) (by simp [kindOf, h1, hc, hco, hrp, hm])
        | exact value_obj hg f st st' ts x _ he hr (by simp [kindOf, h1, hc, hco, hrp, hm])
        | exact value_obj hg f st st' ts x _ he (hd hc hrp) (by simp [kindOf, h1, hc, hco, hrp, hm])
  · have hd : f.containment = true → f.resolveProxies = true → ∀ x : Nat, some x ∈ l → Reason env g objects .directResource x :=
      fun a b x hx => ⟨(h4 x hx).1, y, i, f, _, hslot.1, a, b, hslot.2, hx⟩
    have hn : f.resolveProxies = false → ∀ x : Nat, some x ∈ l → Reason env g objects .nothing x :=
      fun a x hx => ⟨(h4 x hx).1, (h4 x hx).2 a⟩
    have hr : ∀ x : Nat, some x ∈ l → Reason env g objects .resource x := fun x hx => ⟨(h4 x hx).1, trivial⟩
    cases hc : f.containment <;> cases hco : f.container <;> cases hrp : f.resolveProxies <;>
      simp [hc, hco] at h3 <;> simp only [kindOf, h1, hc, hco, hrp, h2, encodeValue, if_true, if_false,
        Bool.false_eq_true] at he <;>
      first
        | exact value_objs hg f st st' ts l _ he (hn hrp) (by simp [kindOf, h1, hc, hco, hrp, h2])
        | exact value_objs hg f st st' ts l _ he hr (by simp [kindOf, h1, hc, hco, hrp, h2])
        | exact value_objs hg f st st' ts l _ he (hd hc hrp) (by simp [kindOf, h1, hc, hco, hrp, h2])
  · rcases kind_data h1 h2 with hk | hk | ⟨t, hk⟩
    · rw [hk] at he h3
      simp only [encodeValue] at he
      by_cases hm : env.toText f.dataType w ∈ st.enums
      · simp only [hm, if_true, Option.some.injEq, Prod.mk.injEq] at he
        obtain ⟨rfl, rfl⟩ := he
        refine ⟨Ext.refl _, ?_⟩
        intro d rest fuel o i h hlen _
        refine ⟨.data w, d, [], ?_, h, by simp, hlen, rfl, complete_self _ _ _ _ _ _ rfl⟩
        have hlt := List.idxOf_lt_length_iff.2 hm
        simp only [decodeValue, hk, List.cons_append, List.nil_append, decodeInt, h.enums]
        rw [if_neg (by omega), item_nat, getElem?_idxOf hm]
        simp only [h3]
      · simp only [hm, if_false, Option.some.injEq, Prod.mk.injEq] at he
        obtain ⟨rfl, rfl⟩ := he
        refine ⟨⟨List.prefix_refl _, List.prefix_refl _, fun _ => List.prefix_refl _, id⟩, ?_⟩
        intro d rest fuel o i h hlen _
        refine ⟨.data w, { d with enums := st.enums ++ [env.toText f.dataType w] }, [], ?_,
          rel_enums h _, by simp, hlen, rfl, complete_self _ _ _ _ _ _ rfl⟩
        simp only [decodeValue, hk, List.cons_append, List.nil_append, decodeInt, h.enums]
        rw [if_pos (by omega)]
        simp only [decodeString, h3]
    · rw [hk] at he h3
      simp only [encodeValue, Option.some.injEq, Prod.mk.injEq] at he
      obtain ⟨rfl, rfl⟩ := he
      refine ⟨Ext.refl _, ?_⟩
      intro d rest fuel o i h hlen _
      refine ⟨.data w, d, [], ?_, h, by simp, hlen, rfl, complete_self _ _ _ _ _ _ rfl⟩
      simp only [decodeValue, hk, List.cons_append, List.nil_append, decodeString, h3]
    · rw [hk] at he h3
      simp only at h3
      simp only [encodeValue, h3, Option.map_some, Option.some.injEq, Prod.mk.injEq] at he
      obtain ⟨rfl, rfl⟩ := he
      refine ⟨Ext.refl _, ?_⟩
      intro d rest fuel o i h hlen _
      refine ⟨.data w, d, [], ?_, h, by simp, hlen, rfl, complete_self _ _ _ _ _ _ rfl⟩
      simp only [decodeValue, hk, List.cons_append, List.nil_append, if_true]
  · have hk : kindOf f = .dataList := by simp [kindOf, h1, h2]
    rw [hk] at he
    simp only [encodeValue, Option.some.injEq, Prod.mk.injEq] at he
    obtain ⟨rfl, rfl⟩ := he
    refine ⟨Ext.refl _, ?_⟩
    intro d rest fuel o i h hlen _
    refine ⟨.datas l, d, [], ?_, h, by simp, hlen, rfl, complete_self _ _ _ _ _ _ rfl⟩
    have hs := decodeStrings_spec (D := D) (l.map (env.toText f.dataType)) rest
    simp only [List.length_map, List.map_map] at hs
    have hcomp : (Tok.str (D := D)) ∘ env.toText f.dataType = fun v => Tok.str (env.toText f.dataType v) := rfl
    rw [hcomp] at hs
    simp only [decodeValue, hk, List.cons_append, decodeInt, Int.toNat_natCast, hs]
    have : (l.map (env.toText f.dataType)).map (env.fromText f.dataType) = l := by
      rw [List.map_map]
      conv => rhs; rw [← List.map_id l]
      apply List.map_congr_left
      intro a ha
      simpa using h3 a ha
    rw [this]

end

end Verif.Binary
