import Verif.Proofs.ReflectSet
/-!
# Lemmas for C73: the other features, `EUnset`, and the IDs that fall through
-/

namespace Verif.Reflect
open Spec

/-- The write places of a feature are read by the features computed from it only. -/
def apart (k : Kind) : Bool :=
  (List.range 25).all fun i => (List.range 25).all fun j =>
    match (declared k)[i]?, (declared k)[j]? with
    | some di, some dj =>
      !di.changeable || i == j || (reads k j).all (fun f => !(writes k i).contains f) ||
        computedFrom.contains (dj.name, di.name) || di.name == "defaultValue"
    | _, _ => true

theorem apart_all (k : Kind) : apart k = true := by
  cases k <;> decide +kernel

theorem lt25 {k : Kind} {id : Nat} {d : Decl} (h : (declared k)[id]? = some d) : id < 25 :=
  Nat.lt_of_lt_of_le (declared_lt h) (count_le k)

theorem disjoint {k : Kind} {i j : Nat} {di dj : Decl} (hi : (declared k)[i]? = some di)
    (hj : (declared k)[j]? = some dj) (hc : di.changeable = true) (hne : j ≠ i)
    (hn : (dj.name, di.name) ∉ computedFrom) (hd : di.name ≠ "defaultValue") :
    ∀ f ∈ reads k j, f ∉ writes k i := by
  have h := apart_all k
  simp only [apart, List.all_eq_true, List.mem_range] at h
  have h := h i (lt25 hi) j (lt25 hj)
  rw [hi, hj] at h
  simp only [Bool.or_eq_true, Bool.not_eq_eq_eq_not, Bool.not_true, List.all_eq_true, beq_iff_eq,
    List.contains_iff_mem] at h
  rcases h with (((h | h) | h) | h) | h
  · rw [hc] at h; simp at h
  · exact absurd h.symm hne
  · intro f hf hw
    have := h f hf
    simp [hw] at this
  · exact absurd h hn
  · exact absurd h hd

/-- The other features show the same. -/
theorem frame_shows {E : Env} {s t : El} {i j : Nat} {di dj : Decl} (hf : Frame s t (writes s.kind i))
    (hi : (declared s.kind)[i]? = some di) (hj : (declared s.kind)[j]? = some dj) (hc : di.changeable = true)
    (hne : j ≠ i) (hn : (dj.name, di.name) ∉ computedFrom) (hd : di.name ≠ "defaultValue") (w : Val) :
    Shows E t j w ↔ Shows E s j w := by
  rw [shows_iff, shows_iff, value_congr E s t j hf.1.symm (declared_lt hj)
    (fun f hr => hf.2 f (disjoint hi hj hc hne hn hd f hr))]

def UnsetOutcome (E : Env) (s : El) (id : Nat) (d : Decl) : Prop :=
  ∃ t : El, eUnset E s id = .ok t ∧ After E s t id d d.default ∧ ∃ e : Event, Told E s t id d d.default e

theorem unset_of_set {E : Env} {s : El} {id : Nat} {d : Decl} (hu : eUnset E s id = eSet E s id d.default)
    (h : Outcome E s id d d.default) : UnsetOutcome E s id d := by
  obtain ⟨t, h1, h2, h3⟩ := h
  exact ⟨t, hu.trans h1, h2, _, h3⟩

section
variable {E : Env} {s : El} {k : Kind} {id : Nat} {d : Decl}

theorem unset_type (hi : id = 8) (hk : s.kind = k) (hd : d.default = .nil)
    (hw : writes k id = [.r .eType])
    (hset : eUnset E s id = .ok (unsetEType s))
    (hget : ∀ s : El, s.kind = k → valueOf (eGet E s id false) = .ok (shown (ofRef (s.refs .eType))))
    (his : ∀ s : El, s.kind = k → answer (eIsSet E s id) = .ok (s.refs .eType).isSome) : UnsetOutcome E s id d := by
  subst hi
  have hsh : ∀ o : Option Nat, shown (ofRef o) = ofRef o := by intro o; cases o <;> rfl
  simp only [hsh] at hget
  refine ⟨_, hset, ⟨?_, ?_, ?_, ?_⟩, .unset, ?_⟩
  · rw [hget _ (by simpa [unsetEType, putRef] using hk), hd]; simp [unsetEType, putRef, ofRef]
  · rw [his _ (by simpa [unsetEType, putRef] using hk), hd]; simp [unsetEType, putRef]
  · simp [unsetEType, putRef]
  · intro g hg
    rw [hk, hw] at hg
    rw [unsetEType, agree_notify]
    cases g <;> simp only [Agree, putRef] <;> simp_all
  · intro _ old u ho _
    cases raw_of ho (hget s hk) (by simp [ofRef_ne])
    simp [notify_log, unsetEType, putRef, hd]

theorem unset_instanceClass (hi : id = 3) (hk : s.kind = k) (hd : d.default = .nil)
    (hw : writes k id = [.instanceClass])
    (hset : eUnset E s id = .ok (putInstanceClass s none))
    (hget : ∀ s : El, s.kind = k → valueOf (eGet E s id false) = .ok (shown (ofType s.instanceClass)))
    (his : ∀ s : El, s.kind = k → answer (eIsSet E s id) = .ok s.instanceClass.isSome) : UnsetOutcome E s id d := by
  subst hi
  have hsh : ∀ o : Option Nat, shown (ofType o) = ofType o := by intro o; cases o <;> rfl
  simp only [hsh] at hget
  refine ⟨_, hset, ⟨?_, ?_, ?_, ?_⟩, .set, ?_⟩
  · rw [hget _ (by simpa [putInstanceClass] using hk), hd]; simp [putInstanceClass, ofType]
  · rw [his _ (by simpa [putInstanceClass] using hk), hd]; simp [putInstanceClass]
  · simp [putInstanceClass]
  · intro g hg
    rw [hk, hw] at hg
    rw [putInstanceClass, agree_notify]
    cases g <;> simp only [Agree] <;> simp_all
  · intro _ old u ho _
    cases raw_of ho (hget s hk) (by simp [ofType_ne])
    simp [notify_log, putInstanceClass, hd, ofType]

theorem unset_exceptions (hk : s.kind = k) (hd : d.default = .list none []) (hm : d.many = true)
    (hw : writes k id = [.l .eExceptions])
    (hset : eUnset E s id = .ok (unsetExceptions s))
    (hget : ∀ s : El, s.kind = k → eGet E s id false = getList s .eExceptions)
    (his : ∀ s : El, s.kind = k → answer (eIsSet E s id) = .ok (listIsSet (s.lists .eExceptions))) :
    UnsetOutcome E s id d := by
  have hkind : (unsetExceptions s).kind = s.kind := by
    unfold unsetExceptions; split <;> rfl
  have hl : ((unsetExceptions s).lists .eExceptions).getD [] = [] ∧
      listIsSet ((unsetExceptions s).lists .eExceptions) = false := by
    unfold unsetExceptions
    cases hx : s.lists .eExceptions <;> simp [clearList, listIsSet, hx]
  refine ⟨_, hset, ⟨?_, ?_, hkind, ?_⟩, .set, ?_⟩
  · rw [hget _ (hkind.trans hk), value_getList, hl.1, hd]
  · rw [his _ (hkind.trans hk), hl.2]; simp
  · intro g hg
    rw [hk, hw] at hg
    unfold unsetExceptions
    cases s.lists .eExceptions with
    | none => exact agree_refl s g
    | some l => simp only [clearList]; cases g <;> simp only [Agree] <;> simp_all
  · intro h; simp [announced, hm] at h

end

macro "rawUnset" hk:ident : tactic => `(tactic| (unfold eUnset; rw [$hk:ident]; rfl))
macro "sameUnset" hk:ident : tactic => `(tactic| (unfold eUnset eSet; rw [$hk:ident]; rfl))

theorem fits_flag (n : String) (b : Bool) (c : Bool) : Fits (flag n b c) (.bool b) := ⟨b, rfl⟩
theorem fits_number (n : String) (b : Int) : Fits (number n b) (.int b) := ⟨b, rfl⟩
theorem fits_text (n : String) : Fits (text n) (.str "") := ⟨"", rfl⟩
theorem fits_link (n : String) (c : Bool) : Fits (link n c) .nil := Or.inl rfl
theorem fits_links (n : String) (c : Bool) : Fits (links n c) (.list none []) := ⟨[], .nil, rfl⟩
theorem fits_object (n : String) (c : Bool) : Fits (value n .javaObject c) .nil := by
  intro o l h; cases h

set_option maxHeartbeats 4000000 in
/-- What `EUnset` does. -/
theorem unset_outcome (E : Env) (s : El) (id : Nat) (d : Decl) (h : (declared s.kind)[id]? = some d)
    (hc : d.changeable = true)
    (h1 : d.name ∉ ["defaultValue", "literal", "classifierID", "eModelElement", "ePackage"])
    (h3 : d.name = "iD" → ¬ Removed s 16) : UnsetOutcome E s id d := by
  have hid := declared_lt h
  have hlt := upTo25 hid (count_le _)
  have go : Fits d d.default → d.name ≠ "instanceClass" → eUnset E s id = eSet E s id d.default →
      UnsetOutcome E s id d := by
    intro fits hn hu
    refine unset_of_set hu (set_outcome E s id d d.default h hc fits ?_ (fun e => absurd e hn) h3 ?_ ?_ ?_)
    · intro e; exact h1 (by rw [e]; decide)
    · intro e; exact absurd (by rw [e]; decide) h1
    · intro e; exact absurd (by rw [e]; decide) h1
    · rintro (e | e) <;> exact absurd (by rw [e]; decide) h1
  generalize hk : s.kind = k at h hid
  cases k <;> simp only [featureCount] at hid <;> split25 hlt <;> (try omega) <;>
    (have e := Option.some.inj (show some _ = some d from h)
     subst e) <;>
    first
    | exact absurd hc (by decide)
    | exact absurd (by decide) h1
    | exact go (fits_flag _ _ _) (by decide) (by sameUnset hk)
    | exact go (fits_number _ _) (by decide) (by sameUnset hk)
    | exact go (fits_text _) (by decide) (by sameUnset hk)
    | exact go (fits_links _ _) (by decide) (by sameUnset hk)
    | exact go (fits_link _ _) (by decide) (by sameUnset hk)
    | exact go (fits_object _ _) (by decide) (by sameUnset hk)
    | exact unset_type rfl hk rfl rfl (by rawUnset hk) (by raw) (by rawIs)
    | exact unset_instanceClass rfl hk rfl rfl (by rawUnset hk) (by raw) (by rawIs)
    | exact unset_exceptions hk rfl rfl rfl (by rawUnset hk) (by raw) (by rawIs)

set_option maxHeartbeats 4000000 in
/-- A declared feature that is not changeable: `ESet` and `EUnset` call themselves without end. -/
theorem unchangeable (E : Env) (s : El) (id : Nat) (d : Decl) (v : Val) (h : (declared s.kind)[id]? = some d)
    (hc : d.changeable = false) : eSet E s id v = .endless ∧ eUnset E s id = .endless := by
  have hid := declared_lt h
  have hlt := upTo25 hid (count_le _)
  have hf : ∀ (α : Type) (n : Nat), featureCount s.kind = n → id < n → (fallback s id : Res α) = .endless := by
    intro α n hn hlt
    rw [fallback, if_pos (by rw [hn]; exact hlt)]
  generalize hk : s.kind = k at h hid hf
  cases k <;> simp only [featureCount] at hid <;> split25 hlt <;> (try omega) <;>
    (have e := Option.some.inj (show some _ = some d from h)
     subst e) <;>
    first
    | exact absurd hc (by decide)
    | exact ⟨by unfold eSet; rw [hk]; exact hf _ _ rfl (by decide), by
        unfold eUnset; rw [hk]; exact hf _ _ rfl (by decide)⟩

/-- An ID which is not the one of a feature panics. -/
theorem undeclared (E : Env) (s : El) (id : Nat) (v : Val) (r : Bool) (h : (declared s.kind)[id]? = none) :
    eGet E s id r = .panic ∧ eSet E s id v = .panic ∧ eUnset E s id = .panic ∧ eIsSet E s id = .panic := by
  rw [List.getElem?_eq_none_iff, declared_length] at h
  have hf : ∀ α : Type, (fallback s id : Res α) = .panic := by
    intro α; rw [fallback, if_neg (by omega)]
  unfold eGet eSet eUnset eIsSet
  cases hk : s.kind <;> rw [hk] at h <;> simp only [featureCount] at h <;>
    obtain ⟨n, rfl⟩ := Nat.exists_eq_add_of_le' h <;>
    exact ⟨hf _, hf _, hf _, hf _⟩

end Verif.Reflect
