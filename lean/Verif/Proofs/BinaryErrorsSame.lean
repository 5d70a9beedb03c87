import Verif.Proofs.BinaryErrorsEnd

/-!
# Binary documents that are damaged: documents that are accepted are read as in `Verif.Model.Binary`
-/

namespace Verif.BinaryErrors

open Binary

variable {D : Type} {α β : Type}

/-- the parser accepts -/
def Gives (p : Parser D α) (ts : List (Tok D)) (r : α × List (Tok D)) : Prop := p ts = .ok r

theorem bind_ok {p : Parser D α} {f : α → Parser D β} {ts : List (Tok D)} {r : β × List (Tok D)} (h : Gives (p >>= f) ts r) :
    ∃ v mid, Gives p ts (v, mid) ∧ Gives (f v) mid r := by
  unfold Gives at h
  rw [bind_eq] at h
  cases hr : p ts with
  | ok vr => rw [hr] at h; exact ⟨vr.1, vr.2, hr, h⟩
  | error => rw [hr] at h; simp at h
  | panic => rw [hr] at h; simp at h
  | hang => rw [hr] at h; simp at h

theorem pure_ok {v : α} {ts : List (Tok D)} {r : α × List (Tok D)} (h : Gives (Pure.pure v : Parser D α) ts r) : r = (v, ts) := by
  have h' : (Res.ok (v, ts) : Res (α × List (Tok D))) = .ok r := h
  injection h' with h'; exact h'.symm

theorem crash_ok {ts : List (Tok D)} {r : α × List (Tok D)} (h : Gives (crash : Parser D α) ts r) : False := by cases h
theorem fail_ok {ts : List (Tok D)} {r : α × List (Tok D)} (h : Gives (fail : Parser D α) ts r) : False := by cases h
theorem stuck_ok {ts : List (Tok D)} {r : α × List (Tok D)} (h : Gives (stuck : Parser D α) ts r) : False := by cases h

theorem int_ok {ts : List (Tok D)} {v : Int} {rest : List (Tok D)} (h : Gives (int : Parser D Int) ts (v, rest)) : ts = .int v :: rest := by
  unfold Gives int at h
  split at h <;> simp at h
  obtain ⟨rfl, rfl⟩ := h; rfl

theorem str_ok {ts : List (Tok D)} {v : String} {rest : List (Tok D)} (h : Gives (str : Parser D String) ts (v, rest)) : ts = .str v :: rest := by
  unfold Gives str at h
  split at h <;> simp at h
  obtain ⟨rfl, rfl⟩ := h; rfl

theorem bytes_ok {ts : List (Tok D)} {v : List Nat} {rest : List (Tok D)} (h : Gives (bytes : Parser D (List Nat)) ts (v, rest)) :
    ts = .bytes v :: rest := by
  unfold Gives bytes at h
  split at h <;> simp at h
  obtain ⟨rfl, rfl⟩ := h; rfl

theorem anyID_ok {ts : List (Tok D)} {v : Nat} {rest : List (Tok D)} (h : Gives (anyID : Parser D Nat) ts (v, rest)) : ts = .any v :: rest := by
  unfold Gives anyID at h
  split at h <;> simp at h
  obtain ⟨rfl, rfl⟩ := h; rfl

theorem value_ok {t : Basic} {ts : List (Tok D)} {v : D} {rest : List (Tok D)} (h : Gives (value t : Parser D D) ts (v, rest)) :
    ts = .val t v :: rest := by
  unfold Gives value at h
  split at h
  · split at h
    · rename_i ht
      simp only [Res.ok.injEq, Prod.mk.injEq] at h
      obtain ⟨rfl, rfl⟩ := h
      rw [ht]
    · simp at h
  · simp at h

theorem index_ok {β : Type} {l : List β} {i : Int} {ts rest : List (Tok D)} {v : β} (h : Gives (index l i : Parser D β) ts (v, rest)) :
    0 ≤ i ∧ l[i.toNat]? = some v ∧ ts = rest := by
  unfold index at h
  split at h
  · exact (crash_ok h).elim
  · split at h
    · injection pure_ok h with h1 h2
      subst h1 h2
      exact ⟨by omega, by assumption, rfl⟩
    · exact (crash_ok h).elim

theorem make_ok {lim : Limits} {size : Int} {ts rest : List (Tok D)} {v : Nat} (h : Gives (make lim size : Parser D Nat) ts (v, rest)) :
    0 ≤ size ∧ v = size.toNat ∧ ts = rest := by
  unfold make at h
  split at h
  · exact (crash_ok h).elim
  · injection pure_ok h with h1 h2
    exact ⟨by grind, h1, h2.symm⟩

variable (env : Env D) (lim : Limits)

theorem readURI_ok {d d' : Dec D} {ts rest : List (Tok D)} {u : Option URI} (h : Gives (readURI env d) ts ((u, d'), rest)) :
    decodeURI env d ts = some (u, d', rest) := by
  unfold readURI at h
  replace h := bind_ok h; obtain ⟨id, mid, h1, h⟩ := h
  obtain rfl := int_ok h1
  simp only [decodeURI, decodeInt]
  split at h
  · rename_i hid
    injection pure_ok h with h1 h2
    injection h1 with h1 h3
    subst h1 h2 h3
    simp [hid]
  · rename_i hid
    split at h
    · rename_i hle
      replace h := bind_ok h; obtain ⟨s, mid, h1, h⟩ := h
      obtain rfl := str_ok h1
      replace h := bind_ok h; obtain ⟨f, mid, h1, h⟩ := h
      obtain rfl := str_ok h1
      injection pure_ok h with h1 h2
      injection h1 with h1 h3
      subst h1 h2 h3
      simp [hid, hle, decodeString]
    · rename_i hle
      replace h := bind_ok h; obtain ⟨p, mid, h1, h⟩ := h
      obtain ⟨g1, g2, rfl⟩ := index_ok h1
      replace h := bind_ok h; obtain ⟨f, mid, h1, h⟩ := h
      obtain rfl := str_ok h1
      injection pure_ok h with h1 h2
      injection h1 with h1 h3
      subst h1 h2 h3
      have : item d'.uris id = some p := by rw [item, if_neg (by omega)]; exact g2
      simp [hid, hle, decodeString, this]

theorem readPackage_ok {d d' : Dec D} {ts rest : List (Tok D)} {q p : Nat} (h : Gives (readPackage env d) ts (((q, p), d'), rest)) :
    decodePackage env d ts = some (q, d', rest) ∧ d'.pkgs[q]? = some p := by
  unfold readPackage at h
  replace h := bind_ok h; obtain ⟨id, mid, h1, h⟩ := h
  obtain rfl := int_ok h1
  simp only [decodePackage, decodeInt]
  split at h
  · rename_i hle
    replace h := bind_ok h; obtain ⟨s, mid, h1, h⟩ := h
    obtain rfl := str_ok h1
    replace h := bind_ok h; obtain ⟨⟨u, d1⟩, mid, h1, h⟩ := h
    have h2 := readURI_ok env h1
    simp only at h
    split at h
    · exact (fail_ok h).elim
    · rename_i p' hr
      injection pure_ok h with h1 h3
      injection h1 with h1 h4
      injection h1 with h1 h5
      subst h1 h3 h4 h5
      simp [hle, decodeString, h2, hr]
  · rename_i hle
    replace h := bind_ok h; obtain ⟨p', mid, h1, h⟩ := h
    obtain ⟨g1, g2, rfl⟩ := index_ok h1
    injection pure_ok h with h1 h3
    injection h1 with h1 h4
    injection h1 with h1 h5
    subst h1 h3 h4 h5
    refine ⟨?_, g2⟩
    rw [if_neg hle, if_neg (by omega)]

theorem readClass_ok {d d' : Dec D} {ts rest : List (Tok D)} {r : Nat × Nat × Nat} (h : Gives (readClass env d) ts ((r, d'), rest)) :
    decodeClass env d ts = some (r, d', rest) := by
  unfold readClass at h
  replace h := bind_ok h; obtain ⟨⟨⟨q, p⟩, d1⟩, mid, h1, h⟩ := h
  obtain ⟨h2, h3⟩ := readPackage_ok env h1
  simp only at h
  replace h := bind_ok h; obtain ⟨id, mid, h1, h⟩ := h
  obtain rfl := int_ok h1
  simp only [decodeClass, h2, decodeInt, h3]
  split at h
  · exact (crash_ok h).elim
  · rename_i hid
    rw [if_neg hid]
    split at h
    · rename_i c hc
      injection pure_ok h with h1 h4
      injection h1 with h1 h5
      subst h1 h4 h5
      simp [hc]
    · rename_i hc
      replace h := bind_ok h; obtain ⟨s, mid, h1, h⟩ := h
      obtain rfl := str_ok h1
      split at h
      · exact (fail_ok h).elim
      · rename_i c hf
        injection pure_ok h with h1 h4
        injection h1 with h1 h5
        subst h1 h4 h5
        simp [hc, decodeString, hf]

theorem readObjects_ok {dec : Dec D → Parser D (Option Nat × Dec D)} {dec' : Dec D → List (Tok D) → Option (Option Nat × Dec D × List (Tok D))}
    (hd : ∀ d d' o ts rest, Gives (dec d) ts ((o, d'), rest) → dec' d ts = some (o, d', rest)) (n : Nat) :
    ∀ (d d' : Dec D) (ts rest : List (Tok D)) (l : List (Option Nat)), Gives (readObjects dec n d) ts ((l, d'), rest) →
      decodeObjects dec' n d ts = some (l, d', rest) := by
  induction n with
  | zero =>
    intro d d' ts rest l h
    injection pure_ok h with h1 h4
    injection h1 with h1 h5
    subst h1 h4 h5
    rfl
  | succ n ih =>
    intro d d' ts rest l h
    replace h := bind_ok h; obtain ⟨⟨o, d1⟩, mid, h1, h⟩ := h
    replace h := bind_ok h; obtain ⟨⟨l', d2⟩, mid', h2, h⟩ := h
    injection pure_ok h with h3 h4
    injection h3 with h3 h5
    subst h3 h4 h5
    simp only [decodeObjects, hd _ _ _ _ _ h1, ih _ _ _ _ _ h2]

theorem readStrings_ok (t n : Nat) : ∀ (ts rest : List (Tok D)) (l : List String), Gives (readStrings lim t n) ts (l, rest) →
    decodeStrings n ts = some (l, rest) := by
  induction n with
  | zero =>
    intro ts rest l h
    injection pure_ok h with h1 h4
    subst h1 h4
    rfl
  | succ n ih =>
    intro ts rest l h
    replace h := bind_ok h; obtain ⟨s, mid, h1, h⟩ := h
    obtain rfl := str_ok h1
    split at h
    · exact (crash_ok h).elim
    · replace h := bind_ok h; obtain ⟨l', mid', h2, h⟩ := h
      injection pure_ok h with h3 h4
      subst h3 h4
      simp only [decodeStrings, decodeString, ih _ _ _ h2]

theorem readValue_ok {dec : Dec D → Parser D (Option Nat × Dec D)} {dec' : Dec D → List (Tok D) → Option (Option Nat × Dec D × List (Tok D))}
    (hd : ∀ d d' o ts rest, Gives (dec d) ts ((o, d'), rest) → dec' d ts = some (o, d', rest)) {d d' : Dec D} {o i : Nat} {f : Feature} {list : Bool}
    {ts rest : List (Tok D)} (h : Gives (readValue env lim dec d o i f list) ts (d', rest)) : decodeValue env dec' d o i f ts = some (d', rest) := by
  unfold readValue at h
  unfold decodeValue
  split at h
  iterate 6
    · rename_i hk
      replace h := bind_ok h; obtain ⟨⟨r, d1⟩, mid, h1, h⟩ := h
      injection pure_ok h with h3 h4
      subst h3 h4
      simp [hk, hd _ _ _ _ _ h1]
  iterate 4
    · rename_i hk
      split at h
      · replace h := bind_ok h; obtain ⟨s, mid, h1, h⟩ := h
        obtain rfl := int_ok h1
        replace h := bind_ok h; obtain ⟨n, mid, h1, h⟩ := h
        obtain ⟨g1, rfl, rfl⟩ := make_ok h1
        replace h := bind_ok h; obtain ⟨⟨l, d1⟩, mid, h1, h⟩ := h
        injection pure_ok h with h3 h4
        subst h3 h4
        simp [hk, decodeInt, readObjects_ok hd _ _ _ _ _ _ h1, show ¬ s < 0 by omega]
      · exact (crash_ok h).elim
  · rename_i hk
    replace h := bind_ok h; obtain ⟨s, mid, h1, h⟩ := h
    obtain rfl := str_ok h1
    split at h
    · injection pure_ok h with h3 h4
      subst h3 h4
      simp [hk, decodeString]
    · exact (crash_ok h).elim
  · rename_i hk
    replace h := bind_ok h; obtain ⟨s, mid, h1, h⟩ := h
    obtain rfl := int_ok h1
    replace h := bind_ok h; obtain ⟨l, mid, h1, h⟩ := h
    injection pure_ok h with h3 h4
    subst h3 h4
    simp [hk, decodeInt, readStrings_ok lim _ _ _ _ _ h1]
  · rename_i hk
    replace h := bind_ok h; obtain ⟨id, mid, h1, h⟩ := h
    obtain rfl := int_ok h1
    split at h
    · rename_i hle
      replace h := bind_ok h; obtain ⟨s, mid, h1, h⟩ := h
      obtain rfl := str_ok h1
      split at h
      · injection pure_ok h with h3 h4
        subst h3 h4
        simp [hk, decodeString, decodeInt, hle]
      · exact (crash_ok h).elim
    · rename_i hle
      replace h := bind_ok h; obtain ⟨s, mid, h1, h⟩ := h
      obtain ⟨g1, g2, rfl⟩ := index_ok h1
      have : item d.enums id = some s := by rw [item, if_neg (by omega)]; exact g2
      split at h
      · injection pure_ok h with h3 h4
        subst h3 h4
        simp [hk, decodeInt, hle, this]
      · exact (crash_ok h).elim
  · rename_i t hk
    replace h := bind_ok h; obtain ⟨v, mid, h1, h⟩ := h
    obtain rfl := value_ok h1
    injection pure_ok h with h3 h4
    subst h3 h4
    simp [hk]

theorem readFeature_ok {d d' : Dec D} {q k c i : Nat} {ts rest : List (Tok D)} {f : Feature} {list : Bool}
    (h : Gives (readFeature env d q k c i) ts ((f, list, d'), rest)) : featureOf env d q k c i ts = some (f, d', rest) := by
  unfold readFeature at h
  split at h
  · exact (crash_ok h).elim
  · rename_i g hg
    have hi : ¬ (env.features c).length ≤ i := by
      intro hc
      rw [List.getElem?_eq_none hc] at hg
      simp at hg
    rw [featureOf, if_neg hi]
    split at h
    · rename_i hf
      injection pure_ok h with h3 h4
      injection h3 with h3 h5
      injection h5 with h5 h6
      subst h3 h4 h5 h6
      simp [hf]
    · rename_i hf
      replace h := bind_ok h; obtain ⟨s, mid, h1, h⟩ := h
      obtain rfl := str_ok h1
      split at h
      · exact (fail_ok h).elim
      · rename_i f' hf'
        injection pure_ok h with h3 h4
        injection h3 with h3 h5
        injection h5 with h5 h6
        subst h3 h4 h5 h6
        simp [hf, decodeString, hf']

theorem readFeatures_ok {dec : Dec D → Parser D (Option Nat × Dec D)} {dec' : Dec D → List (Tok D) → Option (Option Nat × Dec D × List (Tok D))}
    (hd : ∀ d d' o ts rest, Gives (dec d) ts ((o, d'), rest) → dec' d ts = some (o, d', rest)) (o q k c n : Nat) :
    ∀ (id : Int) (d d' : Dec D) (ts rest : List (Tok D)), Gives (readFeatures env lim dec o q k c n id d) ts (d', rest) →
      decodeFeatures env dec' o q k c n id d ts = some (d', rest) := by
  induction n with
  | zero => intro id d d' ts rest h; exact (stuck_ok h).elim
  | succ n ih =>
    intro id d d' ts rest h
    unfold readFeatures at h
    unfold decodeFeatures
    split at h
    · rename_i hid
      injection pure_ok h with h3 h4
      subst h3 h4
      simp [hid]
    · rename_i hid
      split at h
      · exact (crash_ok h).elim
      · rename_i hneg
        replace h := bind_ok h; obtain ⟨⟨f, list, d1⟩, mid, h1, h⟩ := h
        replace h := bind_ok h; obtain ⟨d2, mid', h2, h⟩ := h
        replace h := bind_ok h; obtain ⟨id', mid'', h3, h⟩ := h
        obtain rfl := int_ok h3
        simp only [if_neg hid, if_neg hneg, readFeature_ok env h1, readValue_ok env lim hd h2, decodeInt]
        exact ih _ _ _ _ _ h

theorem readProxy_ok {id id' : Int} {d d' : Dec D} {ts rest : List (Tok D)} {u : Option URI} (h : Gives (readProxy env id d) ts ((u, id', d'), rest)) :
    decodeProxy env id d ts = some (u, id', d', rest) := by
  unfold readProxy at h
  unfold decodeProxy
  split at h
  · rename_i hid
    replace h := bind_ok h; obtain ⟨⟨u', d1⟩, mid, h1, h⟩ := h
    replace h := bind_ok h; obtain ⟨i, mid', h2, h⟩ := h
    obtain rfl := int_ok h2
    injection pure_ok h with h3 h4
    injection h3 with h3 h5
    injection h5 with h5 h6
    subst h3 h4 h5 h6
    simp [hid, readURI_ok env h1, decodeInt]
  · rename_i hid
    injection pure_ok h with h3 h4
    injection h3 with h3 h5
    injection h5 with h5 h6
    subst h3 h4 h5 h6
    simp [hid]

theorem readID_ok {id id' : Int} {ts rest : List (Tok D)} {i : Option Nat} (h : Gives (readID lim id) ts ((i, id'), rest)) :
    decodeID id ts = some (i, id', rest) := by
  unfold readID at h
  unfold decodeID
  split at h
  · rename_i hid
    replace h := bind_ok h; obtain ⟨u', mid, h1, h⟩ := h
    obtain rfl := anyID_ok h1
    split at h
    · replace h := bind_ok h; obtain ⟨j, mid', h2, h⟩ := h
      obtain rfl := int_ok h2
      injection pure_ok h with h3 h4
      injection h3 with h3 h5
      subst h3 h4 h5
      simp [hid]
    · exact (fail_ok h).elim
  · rename_i hid
    injection pure_ok h with h3 h4
    injection h3 with h3 h5
    subst h3 h4 h5
    simp [hid]

theorem readObject_ok (n : Nat) : ∀ (d d' : Dec D) (o : Option Nat) (ts rest : List (Tok D)), Gives (readObject env lim n d) ts ((o, d'), rest) →
    decodeObject env n d ts = some (o, d', rest) := by
  induction n with
  | zero => intro d d' o ts rest h; exact (stuck_ok h).elim
  | succ n ih =>
    intro d d' o ts rest h
    unfold readObject at h
    unfold decodeObject
    replace h := bind_ok h; obtain ⟨id, mid, h1, h⟩ := h
    obtain rfl := int_ok h1
    simp only [decodeInt]
    split at h
    · rename_i hid
      injection pure_ok h with h3 h4
      injection h3 with h3 h5
      subst h3 h4 h5
      simp [hid]
    · rename_i hid
      rw [if_neg hid]
      split at h
      · rename_i hle
        rw [if_pos hle]
        replace h := bind_ok h; obtain ⟨⟨⟨q, k, c⟩, d1⟩, mid, h1, h⟩ := h
        simp only at h
        split at h
        · exact (crash_ok h).elim
        · replace h := bind_ok h; obtain ⟨id2, mid2, h2, h⟩ := h
          obtain rfl := int_ok h2
          replace h := bind_ok h; obtain ⟨⟨u, id3, d3⟩, mid3, h3, h⟩ := h
          replace h := bind_ok h; obtain ⟨⟨i, id4⟩, mid4, h4, h⟩ := h
          replace h := bind_ok h; obtain ⟨d5, mid5, h5, h⟩ := h
          injection pure_ok h with h6 h7
          injection h6 with h6 h8
          subst h6 h7 h8
          simp only [readClass_ok env h1, readProxy_ok env h3, readID_ok lim h4, readFeatures_ok env lim ih _ _ _ _ _ _ _ _ _ _ h5]
      · rename_i hle
        rw [if_neg hle]
        split at h
        · exact (crash_ok h).elim
        · rename_i hneg
          injection pure_ok h with h6 h7
          injection h6 with h6 h8
          subst h6 h7 h8
          rw [if_neg hneg]

theorem readHeader_ok {ts rest : List (Tok D)} {u : Unit} (h : Gives (readHeader) ts (u, rest)) :
    ts = .bytes binarySignature :: .int binaryVersion :: rest := by
  unfold readHeader at h
  replace h := bind_ok h; obtain ⟨s, mid, h1, h⟩ := h
  obtain rfl := bytes_ok h1
  split at h
  · rename_i hs
    replace h := bind_ok h; obtain ⟨v, mid, h2, h⟩ := h
    obtain rfl := int_ok h2
    split at h
    · rename_i hv
      injection pure_ok h with h6 h7
      rw [hs, hv, h7]
    · exact (fail_ok h).elim
  · exact (fail_ok h).elim

theorem readResource_ok {ts rest : List (Tok D)} {l : List (Option Nat)} {objs : List (Copy D)} {n : Nat}
    (h : Gives (readResource env lim n) ts ((l, objs), rest)) : decodeResource env ts = some (l, objs) := by
  unfold readResource at h
  replace h := bind_ok h; obtain ⟨u, mid, h1, h⟩ := h
  obtain rfl := readHeader_ok h1
  replace h := bind_ok h; obtain ⟨s, mid, h1, h⟩ := h
  obtain rfl := int_ok h1
  replace h := bind_ok h; obtain ⟨k, mid, h1, h⟩ := h
  obtain ⟨g1, rfl, rfl⟩ := make_ok h1
  replace h := bind_ok h; obtain ⟨⟨l', d⟩, mid', h1, h⟩ := h
  injection pure_ok h with h6 h7
  injection h6 with h6 h8
  subst h6 h7 h8
  -- with as many calls as there are items
  have h2 : readObjects (readObject env lim (mid.length + 1)) s.toNat {} mid = .ok ((l, d), rest) := by
    have e1 := Le.readObjects (Le.readObject env lim (mid.length + 1) (max n (mid.length + 1)) (by omega)) s.toNat {} mid
      (NoHang.readObjects (Det.readObject env lim _) (NoHang.readObject env lim _) _ _ mid (by omega))
    have e2 := Le.readObjects (Le.readObject env lim n (max n (mid.length + 1)) (by omega)) s.toNat {} mid (by rw [h1]; simp)
    rw [← e1, e2, h1]
  have h3 := readObjects_ok (readObject_ok env lim (mid.length + 1)) _ _ _ _ _ _ h2
  simp [decodeResource, g1, h3]

end Verif.BinaryErrors
