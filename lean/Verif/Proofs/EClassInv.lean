import Verif.Proofs.EClass
set_option autoImplicit false
namespace Verif.EClass
open Verif.EList Verif.Notify Verif.Spec

/-! ### Solutions -/

/-- The lists computed to a given depth. -/
def allAt (k : K) (w : W) : Nat → Nat → List Nat
  | 0, c => k.own w c
  | n + 1, c => ((w.supers c).flatMap fun s => k.contrib s (allAt k w n s)) ++ k.own w c

theorem flatMap_congr' {α β : Type} (l : List α) (f g : α → List β) (h : ∀ x ∈ l, f x = g x) : l.flatMap f = l.flatMap g := by
  induction l with
  | nil => rfl
  | cons x l ih => simp only [List.flatMap_cons, h x (by simp), ih (fun y hy => h y (by simp [hy]))]

theorem allAt_stable (k : K) (w : W) (rank : Nat → Nat) (hr : RankOf rank w) (n m c : Nat) (hn : rank c ≤ n) (hm : rank c ≤ m) :
    allAt k w n c = allAt k w m c := by
  induction n generalizing m c with
  | zero =>
    have : w.supers c = [] := by
      cases hs : w.supers c with
      | nil => rfl
      | cons s ss => have := hr c s (by simp [hs]); omega
    cases m <;> simp [allAt, this]
  | succ n ih =>
    cases m with
    | zero =>
      have : w.supers c = [] := by
        cases hs : w.supers c with
        | nil => rfl
        | cons s ss => have := hr c s (by simp [hs]); omega
      simp [allAt, this]
    | succ m =>
      simp only [allAt]
      congr 1
      apply flatMap_congr'
      intro s hs
      have := hr c s hs
      rw [ih m s (by omega) (by omega)]

theorem solves_exists (k : K) (w : W) (rank : Nat → Nat) (hr : RankOf rank w) : ∃ all, Solves k w all := by
  refine ⟨fun c => allAt k w (rank c + 1) c, fun c => ?_⟩
  change allAt k w (rank c + 1) c = _
  rw [allAt]
  congr 1
  apply flatMap_congr'
  intro s hs
  have := hr c s hs
  rw [allAt_stable k w rank hr (rank c) (rank s + 1) s (by omega) (by omega)]

/-- Two worlds which differ only at `c`: same lists for the classes which do not have `c` as ancestor. -/
theorem solves_agree (k : K) (w w' : W) (all all' : Nat → List Nat) (rank : Nat → Nat) (hr : RankOf rank w) (c : Nat)
    (hs : Solves k w all) (hs' : Solves k w' all') (h1 : ∀ d, d ≠ c → w'.supers d = w.supers d) (h2 : ∀ d, d ≠ c → k.own w' d = k.own w d)
    (d : Nat) (hd : ¬ Hier.Reaches w.supers d c) : all d = all' d := by
  generalize hn : rank d = n
  induction n using Nat.strongRecOn generalizing d with
  | _ n ih =>
    have hdc : d ≠ c := by rintro rfl; exact hd (.refl _)
    rw [hs d, hs' d, h1 d hdc, h2 d hdc]
    congr 1
    apply flatMap_congr'
    intro s hsd
    rw [ih (rank s) (by have := hr d s hsd; omega) s (fun h => hd (.up hsd h)) rfl]

theorem solves_unique (k : K) (w : W) (all all' : Nat → List Nat) (rank : Nat → Nat) (hr : RankOf rank w)
    (hs : Solves k w all) (hs' : Solves k w all') : all = all' := by
  funext d
  generalize hn : rank d = n
  induction n using Nat.strongRecOn generalizing d with
  | _ n ih =>
    rw [hs d, hs' d]
    congr 1
    apply flatMap_congr'
    intro s hsd
    rw [ih (rank s) (by have := hr d s hsd; omega) s rfl]

/-! ### Invalidation -/

/-- Sub class links correspond to super types. -/
def SubsOk (w : W) : Prop := ∀ a c, (w.subs a).count c = (w.supers c).count a

theorem SubsOk.iff {w : W} (h : SubsOk w) (a c : Nat) : c ∈ w.subs a ↔ a ∈ w.supers c := by
  have := h a c
  rw [← List.count_pos_iff, this, List.count_pos_iff]

theorem reaches_split {w : W} (hsub : SubsOk w) {d c : Nat} (h : Hier.Reaches w.supers d c) :
    d = c ∨ ∃ s ∈ w.subs c, Hier.Reaches w.supers d s := by
  induction h with
  | refl => exact .inl rfl
  | up hs hre ihr =>
    rename_i x y z
    rcases ihr with rfl | ⟨t, ht, hre'⟩
    · exact .inr ⟨x, (hsub.iff _ _).2 hs, .refl _⟩
    · exact .inr ⟨t, ht, .up hs hre'⟩

theorem setModified_ok (m : Mod) (rank : Nat → Nat) (N : Nat) (hN : ∀ d, rank d < N) (n : Nat) :
    ∀ (held : List Nat) (w : W) (c : Nat), N ≤ n + rank c → (∀ h ∈ held, rank h < rank c) → RankOf rank w → SubsOk w →
      ∃ cache', setModified m n held w c = some { w with cache := cache' } ∧
        (∀ k d, Hier.Reaches w.supers d c → resets m k = true → cache' k d = none) ∧
        (∀ k d, (¬ Hier.Reaches w.supers d c ∨ resets m k = false) → cache' k d = w.cache k d) := by
  induction n with
  | zero => intro held w c h; have := hN c; omega
  | succ n ih =>
    intro held w c hn hheld hr hsub
    have hnot : c ∉ held := fun hm => absurd (hheld c hm) (by omega)
    rw [setModified, if_neg hnot]
    have loop : ∀ (ss : List Nat) (cache : Cache → Nat → Option (List Nat)), (∀ s ∈ ss, c ∈ w.supers s) →
        ∃ cache', modEach (setModified m n (c :: held)) { w with cache := cache } ss = some { w with cache := cache' } ∧
          (∀ k d, (∃ s ∈ ss, Hier.Reaches w.supers d s) → resets m k = true → cache' k d = none) ∧
          (∀ k d, ((∀ s ∈ ss, ¬ Hier.Reaches w.supers d s) ∨ resets m k = false) → cache' k d = cache k d) ∧
          (∀ k d, cache k d = none → cache' k d = none) := by
      intro ss
      induction ss with
      | nil => intro cache _; exact ⟨cache, rfl, by simp, fun _ _ _ => rfl, fun _ _ h => h⟩
      | cons s ss ihs =>
        intro cache hss
        have hcs := hss s (by simp)
        have hrs := hr s c hcs
        obtain ⟨ca1, e1, a1, b1⟩ := ih (c :: held) { w with cache := cache } s (by omega)
          (by
            intro h hm
            rcases List.mem_cons.1 hm with rfl | hm
            · exact hrs
            · have := hheld h hm; omega) hr hsub
        obtain ⟨ca2, e2, a2, b2, d2⟩ := ihs ca1 (fun x hx => hss x (by simp [hx]))
        have d1 : ∀ k d, cache k d = none → ca1 k d = none := by
          intro k d h
          by_cases hre : Hier.Reaches w.supers d s
          · cases hres : resets m k with
            | true => exact a1 k d hre hres
            | false => rw [b1 k d (.inr hres)]; exact h
          · rw [b1 k d (.inl hre)]; exact h
        refine ⟨ca2, ?_, ?_, ?_, fun k d h => d2 k d (d1 k d h)⟩
        · rw [modEach, e1]; exact e2
        · rintro k d ⟨x, hx, hre⟩ hres
          rcases List.mem_cons.1 hx with rfl | hx
          · exact d2 k d (a1 k d hre hres)
          · exact a2 k d ⟨x, hx, hre⟩ hres
        · rintro k d h
          rcases h with h | h
          · rw [b2 k d (.inl fun x hx => h x (by simp [hx])), b1 k d (.inl (h s (by simp)))]
          · rw [b2 k d (.inr h), b1 k d (.inr h)]
    obtain ⟨ca, e, a, b, dn⟩ := loop (w.subs c) (reset m w c).cache (fun s hs => (hsub.iff c s).1 hs)
    refine ⟨ca, e, ?_, ?_⟩
    · intro k d hre hres
      -- either d = c or d is below a sub class
      have := reaches_split hsub hre
      rcases this with rfl | h
      · exact dn k d (by simp [reset, hres])
      · exact a k d h hres
    · intro k d h
      rcases h with h | h
      · rw [b k d (.inl ?_)]
        · have : d ≠ c := by rintro rfl; exact h (.refl _)
          simp [reset, this]
        · intro s hs hre
          apply h
          have : c ∈ w.supers s := (hsub.iff c s).1 hs
          clear e a b dn loop
          induction hre with
          | refl => exact .up this (.refl _)
          | up hx _ ihr => exact .up hx (ihr (fun hh => h (.up hx hh)) hs this)
      · rw [b k d (.inr h)]; simp [reset, h]

/-! ### Sub class links -/

theorem removeAt_get {α : Type} [DecidableEq α] (ps : List Int) (xs s t : List α) (h : Replay.removeAt ps xs s = some t) (i : Nat)
    (hi : ∀ q ∈ ps, (i : Int) < q) : t[i]? = s[i]? := by
  induction ps generalizing xs t with
  | nil => cases xs <;> simp_all [Replay.removeAt]
  | cons p ps ih =>
    cases xs with
    | nil => simp [Replay.removeAt] at h
    | cons y ys =>
      simp only [Replay.removeAt] at h
      split at h
      · simp at h
      · rename_i t' ht'
        split at h
        · simp only [Option.some.injEq] at h
          subst h
          have hip := hi p (by simp)
          rw [List.getElem?_eraseIdx_of_lt (by omega), ih ys t' ht' (fun q hq => hi q (by simp [hq]))]
        · simp at h

theorem removeAt_perm {α : Type} [DecidableEq α] (ps : List Int) (xs s t : List α) (h : Replay.removeAt ps xs s = some t) :
    (xs ++ t).Perm s := by
  induction ps generalizing xs t with
  | nil => cases xs <;> simp_all [Replay.removeAt]
  | cons p ps ih =>
    cases xs with
    | nil => simp [Replay.removeAt] at h
    | cons y ys =>
      simp only [Replay.removeAt] at h
      split at h
      · simp at h
      · rename_i t' ht'
        split at h
        · rename_i hc
          simp only [Option.some.injEq] at h
          subst h
          have hg := removeAt_get ps ys s t' ht' p.toNat (by intro q hq; have := hc.2.2 q hq; omega)
          rw [hc.2.1] at hg
          have hlt : p.toNat < t'.length := by
            rcases Nat.lt_or_ge p.toNat t'.length with h | h
            · exact h
            · simp [h] at hg
          have hperm := cons_eraseIdx_perm t' p.toNat hlt
          rw [List.getElem?_eq_getElem hlt, Option.some.injEq] at hg
          rw [hg] at hperm
          refine List.Perm.trans ?_ (ih ys t' ht')
          have : (y :: ys ++ t'.eraseIdx p.toNat).Perm (ys ++ y :: t'.eraseIdx p.toNat) := by
            simpa using (List.perm_middle (a := y) (l₁ := ys) (l₂ := t'.eraseIdx p.toNat)).symm
          exact this.trans (List.Perm.append_left ys hperm)
        · simp at h

theorem link_count (c : Nat) (w : W) (x a e : Nat) :
    ((link c w x).subs a).count e = (w.subs a).count e + (if a = x ∧ e = c then 1 else 0) := by
  simp only [link, upd]
  by_cases h : a = x
  · subst h
    by_cases he : e = c
    · subst he; simp
    · have : ¬ c = e := fun h => he h.symm
      simp [he, List.count_cons, this]
  · simp [h]

theorem unlink_count (c : Nat) (w : W) (x a e : Nat) :
    ((unlink c w x).subs a).count e = (w.subs a).count e - (if a = x ∧ e = c then 1 else 0) := by
  simp only [unlink, upd]
  by_cases h : a = x
  · subst h
    by_cases he : e = c
    · subst he; simp
    · have : ¬ c = e := fun h => he h.symm
      simp [he, List.count_erase, this]
  · simp [h]

theorem links_count (c : Nat) (l : List Nat) (w : W) (a e : Nat) :
    ((l.foldl (link c) w).subs a).count e = (w.subs a).count e + (if e = c then l.count a else 0) := by
  induction l generalizing w with
  | nil => simp
  | cons x l ih =>
    rw [List.foldl_cons, ih, link_count, List.count_cons]
    by_cases he : e = c <;> by_cases ha : x = a
    · subst ha; simp [he]; omega
    · have : ¬ a = x := fun h => ha h.symm
      simp [he, ha, this]
    · simp [he]
    · simp [he]

theorem unlinks_count (c : Nat) (l : List Nat) (w : W) (a e : Nat) :
    ((l.foldl (unlink c) w).subs a).count e = (w.subs a).count e - (if e = c then l.count a else 0) := by
  induction l generalizing w with
  | nil => simp
  | cons x l ih =>
    rw [List.foldl_cons, ih, unlink_count, List.count_cons]
    by_cases he : e = c <;> by_cases ha : x = a
    · subst ha; simp [he]; omega
    · have : ¬ a = x := fun h => ha h.symm
      simp [he, ha, this]
    · simp [he]
    · simp [he]

/-- Only the links change. -/
theorem subsOn_frame (c : Nat) (w : W) (n : Notif Nat) : ∃ subs', subsOn c w n = { w with subs := subs' } := by
  have hl : ∀ (l : List Nat) (w : W), ∃ subs', l.foldl (link c) w = { w with subs := subs' } := by
    intro l
    induction l with
    | nil => intro w; exact ⟨w.subs, rfl⟩
    | cons x l ih => intro w; obtain ⟨s, hs⟩ := ih (link c w x); exact ⟨s, by rw [List.foldl_cons, hs]; rfl⟩
  have hu : ∀ (l : List Nat) (w : W), ∃ subs', l.foldl (unlink c) w = { w with subs := subs' } := by
    intro l
    induction l with
    | nil => intro w; exact ⟨w.subs, rfl⟩
    | cons x l ih => intro w; obtain ⟨s, hs⟩ := ih (unlink c w x); exact ⟨s, by rw [List.foldl_cons, hs]; rfl⟩
  unfold subsOn
  split
  · cases n.old <;> cases n.new <;> exact ⟨_, rfl⟩
  · cases n.old <;> cases n.new <;> exact ⟨_, rfl⟩
  · cases n.new <;> exact ⟨_, rfl⟩
  · cases n.new <;> first | exact hl _ _ | exact ⟨_, rfl⟩
  · cases n.old <;> exact ⟨_, rfl⟩
  · cases n.old <;> first | exact hu _ _ | exact ⟨_, rfl⟩
  · exact ⟨_, rfl⟩

/-- A notification which describes the change of the super types of `c` from `s` to `s'` keeps the links right. -/
theorem subsOn_count (c : Nat) (w : W) (n : Notif Nat) (s s' : List Nat) (h : Replay.apply s n = some s')
    (hs : ∀ a, (w.subs a).count c = s.count a) (a e : Nat) :
    ((subsOn c w n).subs a).count e = if e = c then s'.count a else (w.subs a).count e := by
  unfold Replay.apply at h
  split at h
  · rename_i x ho hn he
    split at h <;> simp only [Option.some.injEq, reduceCtorEq] at h
    rename_i hb
    subst h
    simp only [subsOn, ho, hn, he, link_count]
    by_cases hec : e = c
    · subst hec
      have hp : (s.insertIdx n.position.toNat x).Perm (x :: s) := List.perm_insertIdx x s (by omega)
      rw [if_pos rfl, hp.count_eq, List.count_cons, hs]
      by_cases hax : a = x
      · simp [hax]
      · have : ¬ x = a := fun h => hax h.symm
        simp [hax, this]
    · simp [hec]
  · rename_i l ho hn he
    split at h <;> simp only [Option.some.injEq, reduceCtorEq] at h
    subst h
    simp only [subsOn, ho, hn, he, links_count]
    by_cases hec : e = c
    · subst hec
      simp only [if_true, Seq.insertAllAt, List.count_append, hs]
      have := congrArg (List.count a) (List.take_append_drop n.position.toNat s)
      rw [List.count_append] at this
      omega
    · simp [hec]
  · rename_i o x ho hn he
    split at h <;> simp only [Option.some.injEq, reduceCtorEq] at h
    rename_i hb
    subst h
    simp only [subsOn, ho, hn, he, link_count, unlink_count]
    by_cases hec : e = c
    · subst hec
      have hlt : n.position.toNat < s.length := by
        rcases Nat.lt_or_ge n.position.toNat s.length with h | h
        · exact h
        · simp [h] at hb
      have hso : s[n.position.toNat] = o := by
        have := hb.2; rw [List.getElem?_eq_getElem hlt, Option.some.injEq] at this; exact this
      rw [if_pos rfl, List.count_set hlt, hso, hs]
      have : o = a → 1 ≤ s.count a := by
        rintro rfl
        exact List.count_pos_iff.2 (hso ▸ List.getElem_mem hlt)
      simp only [and_true]
      grind
    · simp [hec]
  · rename_i o x ho hn he
    split at h <;> simp only [Option.some.injEq, reduceCtorEq] at h
    rename_i hb
    subst h
    simp only [subsOn, ho, hn, he]
    by_cases hec : e = c
    · subst hec
      have hlt : o.toNat < s.length := by
        rcases Nat.lt_or_ge o.toNat s.length with h | h
        · exact h
        · simp [h] at hb
      have hp : (Seq.moved s o.toNat n.position.toNat x).Perm s := by
        have h1 : ((s.eraseIdx o.toNat).insertIdx n.position.toNat x).Perm (x :: s.eraseIdx o.toNat) :=
          List.perm_insertIdx x _ (by rw [List.length_eraseIdx_of_lt hlt]; omega)
        have h2 := cons_eraseIdx_perm s o.toNat hlt
        have h3 : s[o.toNat] = x := by
          have := hb.2.1; rw [List.getElem?_eq_getElem hlt, Option.some.injEq] at this; exact this
        rw [h3] at h2
        exact h1.trans h2
      rw [if_pos rfl, hp.count_eq, hs]
    · simp [hec]
  · rename_i x ho hn he
    split at h <;> simp only [Option.some.injEq, reduceCtorEq] at h
    rename_i hb
    subst h
    simp only [subsOn, ho, hn, he, unlink_count]
    by_cases hec : e = c
    · subst hec
      have hlt : n.position.toNat < s.length := by
        rcases Nat.lt_or_ge n.position.toNat s.length with h | h
        · exact h
        · simp [h] at hb
      have h2 := cons_eraseIdx_perm s n.position.toNat hlt
      have h3 : s[n.position.toNat] = x := by
        have := hb.2; rw [List.getElem?_eq_getElem hlt, Option.some.injEq] at this; exact this
      rw [h3] at h2
      have := h2.count_eq a
      rw [List.count_cons] at this
      rw [if_pos rfl, hs]
      by_cases hax : a = x
      · subst hax; simp at this ⊢; omega
      · have hxa : ¬ x = a := fun h => hax h.symm
        simp [hax, hxa] at this ⊢; omega
    · simp [hec]
  · rename_i l ho hn he
    split at h <;> simp only [Option.some.injEq, reduceCtorEq] at h
    rename_i hb
    subst h hb
    simp only [subsOn, ho, hn, he, unlinks_count]
    by_cases hec : e = c
    · subst hec; simp [hs]
    · simp [hec]
  · rename_i l ps ho hn he
    have hp := removeAt_perm ps l s s' h
    simp only [subsOn, ho, hn, he, unlinks_count]
    by_cases hec : e = c
    · subst hec
      have := hp.count_eq a
      rw [List.count_append] at this
      simp only [if_true, hs]; omega
    · simp [hec]
  · simp at h

end Verif.EClass
