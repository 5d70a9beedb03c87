import Verif.Proofs.EClassIds
set_option autoImplicit false
namespace Verif.EClass
open Verif.EList Verif.Notify Verif.Spec

/-- `p` overrides `o`, decided from the lists of super types. -/
def ovb (allS : Nat → List Nat) (sig : Nat → Sig) (p o : Nat) : Bool :=
  (decide ((sig p).cls = (sig o).cls) || (allS (sig p).cls).contains (sig o).cls) && (sig o).name == (sig p).name && (sig p).params == (sig o).params

theorem isOverrideOf_ok (n : Nat) (c : Nat) (sig : Nat → Sig) (w : W) (p o : Nat) (rank : Nat → Nat) (hr : RankOf rank w) (hb : ∀ d, rank d < n)
    (hx : Excl w) (hp : NoProxy w) (hi : Inv w) (allS : Nat → List Nat) (hs : Solves kSupers w allS)
    (hc : (sig p).cls = (sig o).cls ∨ rank (sig p).cls < rank c) :
    ∃ w', isOverrideOf n [c] sig w p o = some (w', ovb allS sig p o) ∧ SB w' w ∧ Inv w' := by
  simp only [isOverrideOf, isSuperTypeOf, ovb]
  by_cases he : (sig p).cls = (sig o).cls
  · rw [if_pos he]
    exact ⟨w, by simp [he], SB.rfl' w, hi⟩
  · rw [if_neg he]
    obtain ⟨w', e, sb, hi', _⟩ := read_held .supers n [c] w (sig p).cls rank hr (hb _) (by
      intro h hm; rw [List.mem_singleton.1 hm]; rcases hc with hc | hc
      · exact absurd hc he
      · exact hc) hx hp hi allS hs
    have e' : compute kSupers n [c] w (sig p).cls = some (w', allS (sig p).cls) := e
    rw [e']
    exact ⟨w', by simp [he], sb, hi'⟩

def ovOf (ov : Nat → Nat → Bool) (oi : Nat) (js : List Nat) (m : List (Nat × Nat)) : List (Nat × Nat) :=
  js.foldl (fun m oj => if ov oj oi then (oi, oj) :: m else m) m

def ovFrom (ov : Nat → Nat → Bool) : List Nat → List (Nat × Nat) → List (Nat × Nat)
  | [], m => m
  | oi :: os, m => ovFrom ov os (ovOf ov oi os.reverse m)

theorem excl_sb {w w' : W} (h : SB w' w) (hx : Excl w) : Excl w' :=
  ⟨by rw [h.feats]; exact hx.fn, by rw [h.feats]; exact hx.f1, by rw [h.opers]; exact hx.on, by rw [h.opers]; exact hx.o1⟩

theorem noproxy_sb {w w' : W} (h : SB w' w) (hp : NoProxy w) : NoProxy w' := by
  intro c s; rw [h.supers, h.proxy]; exact hp c s

theorem sb_symm {w w' : W} (h : SB w' w) : SB w w' :=
  ⟨h.supers.symm, h.feats.symm, h.opers.symm, h.kind.symm, h.name.symm, h.proxy.symm, h.subs.symm⟩

theorem rank_sb {w w' : W} (h : SB w' w) {rank : Nat → Nat} (hr : RankOf rank w) : RankOf rank w' := by
  intro c s; rw [h.supers]; exact hr c s

theorem overridesOf_ok (n : Nat) (c : Nat) (sig : Nat → Sig) (rank : Nat → Nat) (hb : ∀ d, rank d < n) (allS : Nat → List Nat) (oi : Nat)
    (js : List Nat) : ∀ (w : W) (m : List (Nat × Nat)), RankOf rank w → Excl w → NoProxy w → Inv w → Solves kSupers w allS →
      (∀ oj ∈ js, (sig oj).cls = (sig oi).cls ∨ rank (sig oj).cls < rank c) →
      ∃ w', overridesOf n [c] sig oi js w m = some (w', ovOf (ovb allS sig) oi js m) ∧ SB w' w ∧ Inv w' := by
  induction js with
  | nil => intro w m _ _ _ hi _ _; exact ⟨w, rfl, SB.rfl' w, hi⟩
  | cons oj js ih =>
    intro w m hr hx hp hi hs hc
    obtain ⟨w1, e1, sb1, hi1⟩ := isOverrideOf_ok n c sig w oj oi rank hr hb hx hp hi allS hs (hc oj (by simp))
    obtain ⟨w2, e2, sb2, hi2⟩ := ih w1 (if ovb allS sig oj oi then (oi, oj) :: m else m) (rank_sb sb1 hr) (excl_sb sb1 hx) (noproxy_sb sb1 hp) hi1
      (solves_of_sb .supers hs (sb_symm sb1)) (fun o ho => hc o (by simp [ho]))
    refine ⟨w2, ?_, sb2.trans sb1, hi2⟩
    rw [overridesOf, e1]
    exact e2

theorem overridesFrom_ok (n : Nat) (c : Nat) (sig : Nat → Sig) (rank : Nat → Nat) (hb : ∀ d, rank d < n) (allS : Nat → List Nat)
    (l : List Nat) : ∀ (w : W) (m : List (Nat × Nat)), RankOf rank w → Excl w → NoProxy w → Inv w → Solves kSupers w allS →
      (∀ oi ∈ l, ∀ oj ∈ l, (sig oj).cls = (sig oi).cls ∨ rank (sig oj).cls < rank c) →
      ∃ w', overridesFrom n [c] sig l w m = some (w', ovFrom (ovb allS sig) l m) ∧ SB w' w ∧ Inv w' := by
  induction l with
  | nil => intro w m _ _ _ hi _ _; exact ⟨w, rfl, SB.rfl' w, hi⟩
  | cons oi os ih =>
    intro w m hr hx hp hi hs hc
    obtain ⟨w1, e1, sb1, hi1⟩ := overridesOf_ok n c sig rank hb allS oi os.reverse w m hr hx hp hi hs
      (fun oj hj => hc oi (by simp) oj (by simp [List.mem_reverse.1 hj]))
    obtain ⟨w2, e2, sb2, hi2⟩ := ih w1 (ovOf (ovb allS sig) oi os.reverse m) (rank_sb sb1 hr) (excl_sb sb1 hx) (noproxy_sb sb1 hp) hi1
      (solves_of_sb .supers hs (sb_symm sb1)) (fun o ho p hp => hc o (by simp [ho]) p (by simp [hp]))
    refine ⟨w2, ?_, sb2.trans sb1, hi2⟩
    rw [overridesFrom, e1]
    exact e2

theorem ovOf_lookup (ov : Nat → Nat → Bool) (oi o : Nat) (js : List Nat) (m : List (Nat × Nat)) :
    (ovOf ov oi js m).lookup o = if o = oi then (js.reverse.find? (fun j => ov j oi)).or (m.lookup o) else m.lookup o := by
  unfold ovOf
  induction js generalizing m with
  | nil => simp
  | cons j js ih =>
    rw [List.foldl_cons, ih, List.reverse_cons, List.find?_append]
    by_cases ho : o = oi
    · subst ho
      simp only [if_true]
      cases hj : ov j o with
      | true => simp [hj, List.lookup_cons]
      | false => simp [hj]
    · simp only [ho, if_false]
      split
      · rw [List.lookup_cons, show (o == oi) = false from by simpa using ho]
      · rfl

theorem ovFrom_other (ov : Nat → Nat → Bool) (l : List Nat) (o : Nat) (h : o ∉ l) (m : List (Nat × Nat)) : (ovFrom ov l m).lookup o = m.lookup o := by
  induction l generalizing m with
  | nil => rfl
  | cons x l ih =>
    simp only [List.mem_cons, not_or] at h
    rw [ovFrom, ih h.2, ovOf_lookup, if_neg h.1]

theorem ovFrom_lookup (ov : Nat → Nat → Bool) (pre : List Nat) (o : Nat) (post : List Nat) (hn : (pre ++ o :: post).Nodup) (m : List (Nat × Nat)) :
    (ovFrom ov (pre ++ o :: post) m).lookup o = (post.find? (fun j => ov j o)).or (m.lookup o) := by
  induction pre generalizing m with
  | nil =>
    have := (List.nodup_cons.1 hn).1
    rw [List.nil_append, ovFrom, ovFrom_other _ _ _ this, ovOf_lookup, if_pos rfl, List.reverse_reverse]
  | cons x pre ih =>
    have h := List.nodup_cons.1 hn
    have hxo : o ≠ x := by rintro rfl; exact h.1 (by simp)
    rw [List.cons_append, ovFrom, ih h.2, ovOf_lookup, if_neg hxo]

/-- A member of the list of `c` is an own member of an ancestor. -/
theorem mem_own (k : Derived) (hk : ∀ s l, (kOf k).contrib s l = l) (w : W) (rank : Nat → Nat) (hr : RankOf rank w) (all : Nat → List Nat)
    (hs : Solves (kOf k) w all) (f : Nat) : ∀ r c, rank c = r → f ∈ all c → ∃ d, f ∈ (kOf k).own w d ∧ Hier.Reaches w.supers c d := by
  intro r
  induction r using Nat.strongRecOn with
  | _ r ih =>
    intro c hrc hf
    rw [hs c] at hf
    rcases List.mem_append.1 hf with hf | hf
    · obtain ⟨s, hss, hfs⟩ := List.mem_flatMap.1 hf
      rw [hk] at hfs
      obtain ⟨d, h1, h2⟩ := ih (rank s) (by have := hr c s hss; omega) s rfl hfs
      exact ⟨d, h1, .up hss h2⟩
    · exact ⟨c, hf, .refl _⟩

theorem own_mem (k : Derived) (hk : ∀ s l, (kOf k).contrib s l = l) (w : W) (all : Nat → List Nat)
    (hs : Solves (kOf k) w all) (f c d : Nat) (hre : Hier.Reaches w.supers c d) (hf : f ∈ (kOf k).own w d) : f ∈ all c := by
  induction hre with
  | refl => rw [hs]; exact List.mem_append_right _ hf
  | up h _ ih => rw [hs]; exact List.mem_append_left _ (List.mem_flatMap.2 ⟨_, h, by rw [hk]; exact ih hf⟩)

theorem reaches_cases {supers : Nat → List Nat} {b a : Nat} (h : Hier.Reaches supers b a) : b = a ∨ ∃ s ∈ supers b, Hier.Reaches supers s a := by
  cases h with
  | refl => exact .inl rfl
  | up h r => exact .inr ⟨_, h, r⟩

theorem reaches_rank {w : W} {rank : Nat → Nat} (hr : RankOf rank w) {c d : Nat} (h : Hier.Reaches w.supers c d) : d = c ∨ rank d < rank c := by
  induction h with
  | refl => exact .inl rfl
  | up hs _ ih =>
    have := hr _ _ hs
    rcases ih with rfl | h
    · exact .inr this
    · exact .inr (by omega)

/-- Blocks: the list of an ancestor is a block of the list of the class. -/
theorem block_of (k : Derived) (hk : ∀ s l, (kOf k).contrib s l = l) (w : W) (all : Nat → List Nat)
    (hs : Solves (kOf k) w all) (c d : Nat) (hre : Hier.Reaches w.supers c d) : ∃ pre post, all c = pre ++ all d ++ post := by
  induction hre with
  | refl => exact ⟨[], [], by simp⟩
  | up h hre ih =>
    rename_i b s a
    obtain ⟨pre, post, e⟩ := ih
    obtain ⟨l1, l2, hl⟩ := List.append_of_mem h
    refine ⟨(l1.flatMap fun s => (kOf k).contrib s (all s)) ++ pre, post ++ (l2.flatMap fun s => (kOf k).contrib s (all s)) ++ (kOf k).own w b, ?_⟩
    rw [hs b, hl, List.flatMap_append, List.flatMap_cons, hk s, e]
    simp

theorem find_after (ov : Nat → Bool) (pre post : List Nat) (o p : Nat) (hn : (pre ++ o :: post).Nodup)
    (hlt : ∃ a b d : List Nat, pre ++ o :: post = a ++ o :: b ++ p :: d) (hp : ov p = true) : ∃ q, post.find? ov = some q := by
  have : p ∈ post := by
    obtain ⟨a, b, d, e⟩ := hlt
    have e' : pre ++ o :: post = a ++ o :: (b ++ p :: d) := by rw [e]; simp
    have hpa : pre = a ∧ post = b ++ p :: d := by
      have hn1 : o ∉ pre := by
        intro h; have := (List.nodup_append.1 hn).2.2 o h o (by simp); exact this rfl
      have hn2 : o ∉ a := by
        rw [e'] at hn
        intro h; have := (List.nodup_append.1 hn).2.2 o h o (by simp); exact this rfl
      rcases List.append_eq_append_iff.1 e' with ⟨t, h1, h2⟩ | ⟨t, h1, h2⟩
      · cases t with
        | nil => simp at h1 h2; exact ⟨h1.symm, h2⟩
        | cons x t => simp only [List.cons_append, List.cons.injEq] at h2; exact absurd (h1 ▸ (by simp [h2.1]) : o ∈ a) hn2
      · cases t with
        | nil => simp at h1 h2; exact ⟨h1, h2.symm⟩
        | cons x t => simp only [List.cons_append, List.cons.injEq] at h2; exact absurd (h1 ▸ (by simp [h2.1]) : o ∈ pre) hn1
    rw [hpa.2]; simp
  cases h : post.find? ov with
  | some q => exact ⟨q, rfl⟩
  | none => exact absurd hp (by simpa using List.find?_eq_none.1 h p this)

theorem keepsOverrides (c0 : Nat) : Keeps kOps (fun w => w.overrides c0 = none) (fun _ _ => True) := by
  refine ⟨?_, fun _ _ _ _ h => h, fun _ _ _ _ _ h => h, ?_⟩
  · intro w c hi _
    refine ⟨?_, trivial⟩
    simp only [kOps, upd]
    split
    · rfl
    · exact hi
  · intro w c inh hi _ _
    exact hi

end Verif.EClass
