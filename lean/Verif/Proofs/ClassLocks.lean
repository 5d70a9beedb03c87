import Verif.Model.ClassLocks
import Verif.Spec.EClass
set_option autoImplicit false
namespace Verif.ClassLocks
open Verif.Spec

/-- The remaining actions of a goroutine which holds `held` (the latest first): what is locked is of lower rank than what is held, and what is
unlocked is the latest. -/
def Desc (rank : Nat → Nat) : List Nat → List Act → Prop
  | held, [] => held = []
  | held, .lock c :: p => (∀ h ∈ held, rank c < rank h) ∧ Desc rank (c :: held) p
  | held, .unlock c :: p => ∃ rest, held = c :: rest ∧ Desc rank rest p

theorem desc_read (supers : Nat → List Nat) (rank : Nat → Nat) (hr : ∀ c s, s ∈ supers c → rank s < rank c) :
    ∀ (c : Nat) (t : List Act), Read supers c t → ∀ (held : List Nat) (rest : List Act), (∀ h ∈ held, rank c < rank h) → Desc rank held rest →
      Desc rank held (t ++ rest) := by
  intro c t h
  induction h with
  | hit c =>
    intro held rest hh hd
    exact ⟨hh, held, rfl, hd⟩
  | miss c ts hl h ih =>
    intro held rest hh hd
    refine ⟨hh, ?_⟩
    -- the super types one after the other
    have key : ∀ (us : List (List Act)) (k : Nat), ts.drop k = us → Desc rank (c :: held) (us.flatten ++ ([.unlock c] ++ rest)) := by
      intro us
      induction us with
      | nil => intro k _; exact ⟨held, rfl, hd⟩
      | cons u us ihu =>
        intro k hk
        have hku : ts[k]? = some u := by
          have := congrArg (·[0]?) hk
          simpa [List.getElem?_drop] using this
        have hklt : k < ts.length := (List.getElem?_eq_some_iff.1 hku).1
        obtain ⟨s, hs⟩ : ∃ s, (supers c)[k]? = some s := ⟨_, List.getElem?_eq_getElem (by omega)⟩
        have hdrop : ts.drop (k + 1) = us := by
          have := congrArg List.tail hk
          simpa using this
        rw [List.flatten_cons, List.append_assoc]
        apply ih k s u hs hku
        · intro x hx
          have hsc := hr c s (List.mem_of_getElem? hs)
          rcases List.mem_cons.1 hx with rfl | hx
          · exact hsc
          · have := hh x hx; omega
        · exact ihu (k + 1) hdrop
    have := key ts 0 (by simp)
    simpa [List.append_assoc] using this

theorem desc_reads (supers : Nat → List Nat) (rank : Nat → Nat) (hr : ∀ c s, s ∈ supers c → rank s < rank c) (ts : List (List Act))
    (h : ∀ t ∈ ts, ∃ c, Read supers c t) : Desc rank [] ts.flatten := by
  induction ts with
  | nil => rfl
  | cons t ts ih =>
    obtain ⟨c, hc⟩ := h t (by simp)
    exact desc_read supers rank hr c t hc [] _ (by simp) (ih (fun u hu => h u (by simp [hu])))

/-- Every goroutine holds what is recorded and goes downwards. -/
def Good (rank : Nat → Nat) (s : St) : Prop :=
  ∃ held : Nat → List Nat, (∀ t, Desc rank (held t) (s.todo t)) ∧ (∀ t, (held t).Nodup) ∧ ∀ c t, s.owner c = some t ↔ c ∈ held t

theorem good_step (rank : Nat → Nat) (s s' : St) (t : Nat) (hg : Good rank s) (h : step s t = some s') : Good rank s' := by
  obtain ⟨held, hd, hn, ho⟩ := hg
  have hdt := hd t
  simp only [step] at h
  split at h
  · cases h
  · rename_i c rest htodo
    split at h
    · cases h
    · rename_i hfree
      simp only [Option.some.injEq] at h
      subst h
      rw [htodo] at hdt
      have hnot : ∀ u, c ∉ held u := fun u hm => by have := (ho c u).2 hm; rw [hfree] at this; cases this
      refine ⟨fun u => if u = t then c :: held t else held u, ?_, ?_, ?_⟩
      · intro u
        dsimp only
        split
        · exact hdt.2
        · exact hd u
      · intro u
        dsimp only
        split
        · exact List.nodup_cons.2 ⟨hnot t, hn t⟩
        · exact hn u
      · intro d u
        dsimp only
        by_cases hdc : d = c
        · subst hdc
          rw [if_pos rfl]
          by_cases hut : u = t
          · subst hut; simp
          · rw [if_neg hut]
            constructor
            · intro h; exact absurd (Option.some.inj h).symm hut
            · intro h; exact absurd h (hnot u)
        · rw [if_neg hdc]
          by_cases hut : u = t
          · subst hut; rw [if_pos rfl, ho d u]; simp [hdc]
          · rw [if_neg hut]; exact ho d u
  · rename_i c rest htodo
    simp only [Option.some.injEq] at h
    subst h
    rw [htodo] at hdt
    obtain ⟨rest', he, hrest⟩ := hdt
    have hnt := hn t
    rw [he] at hnt
    refine ⟨fun u => if u = t then rest' else held u, ?_, ?_, ?_⟩
    · intro u
      dsimp only
      split
      · exact hrest
      · exact hd u
    · intro u
      dsimp only
      split
      · exact (List.nodup_cons.1 hnt).2
      · exact hn u
    · intro d u
      dsimp only
      by_cases hdc : d = c
      · subst hdc
        rw [if_pos rfl]
        constructor
        · intro h; cases h
        · intro h
          exfalso
          by_cases hut : u = t
          · subst hut; rw [if_pos rfl] at h; exact (List.nodup_cons.1 hnt).1 h
          · rw [if_neg hut] at h
            have h1 := (ho d u).2 h
            have h2 := (ho d t).2 (by rw [he]; simp)
            rw [h1] at h2
            exact hut (Option.some.inj h2)
      · rw [if_neg hdc]
        by_cases hut : u = t
        · subst hut; rw [if_pos rfl, ho d u, he]; simp [hdc]
        · rw [if_neg hut]; exact ho d u

theorem good_run (rank : Nat → Nat) (ts : List Nat) : ∀ s s', Good rank s → run s ts = some s' → Good rank s' := by
  induction ts with
  | nil => intro s s' hg h; simp only [run, Option.some.injEq] at h; exact h ▸ hg
  | cons t ts ih =>
    intro s s' hg h
    rw [run] at h
    split at h
    · cases h
    · rename_i s1 h1; exact ih s1 s' (good_step rank s s1 t hg h1) h

theorem good_free (rank : Nat → Nat) (s : St) (hg : Good rank s) : ¬ Deadlock s := by
  rintro ⟨⟨t0, ht0⟩, hstuck⟩
  obtain ⟨held, hd, hn, ho⟩ := hg
  -- everybody who has something to do wants a mutex which somebody else has locked
  have wants : ∀ t, s.todo t ≠ [] → ∃ c rest, s.todo t = .lock c :: rest ∧ ∃ u, s.owner c = some u := by
    intro t ht
    have h := hstuck t
    simp only [step] at h
    split at h
    · contradiction
    · rename_i c rest htodo
      split at h
      · rename_i u hu; exact ⟨c, rest, htodo, u, hu⟩
      · cases h
    · cases h
  have desc : ∀ r t c rest, rank c = r → s.todo t = .lock c :: rest → False := by
    intro r
    induction r using Nat.strongRecOn with
    | _ r ih =>
      intro t c rest hrc htodo
      obtain ⟨c', rest', htodo', u, hu⟩ := wants t (by rw [htodo]; simp)
      rw [htodo] at htodo'
      simp only [List.cons.injEq, Act.lock.injEq] at htodo'
      obtain ⟨rfl, rfl⟩ := htodo'
      have hcu := (ho c u).1 hu
      have hdu := hd u
      have hne : s.todo u ≠ [] := by
        intro h; rw [h] at hdu; change held u = [] at hdu; rw [hdu] at hcu; cases hcu
      obtain ⟨d, rest2, htd, _⟩ := wants u hne
      rw [htd] at hdu
      exact ih (rank d) (by have := hdu.1 c hcu; omega) u d rest2 rfl htd
  obtain ⟨c, rest, h, _⟩ := wants t0 ht0
  exact desc _ t0 c rest rfl h

end Verif.ClassLocks
