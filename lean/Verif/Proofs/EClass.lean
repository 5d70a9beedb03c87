import Verif.Model.EClass
import Verif.Spec.EClass
import Verif.Proofs.Notify
set_option autoImplicit false
namespace Verif.EClass
open Verif.EList Verif.Notify Verif.Spec

/-- Same classes, features and links. -/
structure SB (w w' : W) : Prop where
  supers : w.supers = w'.supers
  feats : w.feats = w'.feats
  opers : w.opers = w'.opers
  kind : w.kind = w'.kind
  name : w.name = w'.name
  proxy : w.proxy = w'.proxy
  subs : w.subs = w'.subs

theorem SB.rfl' (w : W) : SB w w := ⟨rfl, rfl, rfl, rfl, rfl, rfl, rfl⟩
theorem SB.trans {a b c : W} (h : SB a b) (h' : SB b c) : SB a c :=
  ⟨h.1.trans h'.1, h.2.trans h'.2, h.3.trans h'.3, h.4.trans h'.4, h.5.trans h'.5, h.6.trans h'.6, h.7.trans h'.7⟩
theorem SB.symm {a b : W} (h : SB a b) : SB b a := ⟨h.1.symm, h.2.symm, h.3.symm, h.4.symm, h.5.symm, h.6.symm, h.7.symm⟩

/-- What the generic proof needs to know of a list. -/
structure Law (k : K) : Prop where
  start_base : ∀ w c, SB (k.start w c) w
  put_base : ∀ w c inh, SB (k.put w c inh) w
  start_cache : ∀ w c, (k.start w c).cache = w.cache
  put_cache : ∀ w c inh, (k.put w c inh).cache = fun k' d => if k' = k.name ∧ d = c then some (inh ++ k.own w c) else w.cache k' d
  own : ∀ w w' c, SB w w' → k.own w c = k.own w' c

theorem law (d : Derived) : Law (kOf d) := by
  cases d <;> refine ⟨?_, ?_, ?_, ?_, ?_⟩ <;> intros <;>
    simp_all [kOf, kSupers, kFeats, kAttrs, kRefs, kOps, setCache, SB.rfl'] <;>
    first
      | exact ⟨rfl, rfl, rfl, rfl, rfl, rfl, rfl⟩
      | (rename_i h; simp [h.feats, h.opers, h.kind])

/-- The solution for a list. -/
def Solves (k : K) (w : W) (all : Nat → List Nat) : Prop :=
  ∀ c, all c = ((w.supers c).flatMap fun s => k.contrib s (all s)) ++ k.own w c

def RankOf (rank : Nat → Nat) (w : W) : Prop := ∀ c s, s ∈ w.supers c → rank s < rank c

/-- Cached lists are right and the lists of the super types are cached too. -/
structure CacheOk (k : K) (all : Nat → List Nat) (w : W) : Prop where
  right : ∀ c l, w.cache k.name c = some l → l = all c
  up : ∀ c l, w.cache k.name c = some l → ∀ s ∈ w.supers c, (w.cache k.name s).isSome

/-- What a computation does to the state. -/
structure Rel (k : K) (J : Nat → W → Prop) (held : List Nat) (w w' : W) : Prop where
  base : SB w' w
  mono : ∀ d l, w.cache k.name d = some l → w'.cache k.name d = some l
  others : ∀ k' d, k' ≠ k.name → w'.cache k' d = w.cache k' d
  kept : ∀ d ∈ held, w'.cache k.name d = w.cache k.name d
  keep : ∀ d ∈ held, J d w → J d w'

theorem Rel.refl' (k : K) (J : Nat → W → Prop) (held : List Nat) (w : W) : Rel k J held w w :=
  ⟨SB.rfl' w, fun _ _ h => h, fun _ _ _ => rfl, fun _ _ => rfl, fun _ _ h => h⟩

theorem Rel.trans {k : K} {J : Nat → W → Prop} {held : List Nat} {a b c : W} (h : Rel k J held a b) (h' : Rel k J held b c) :
    Rel k J held a c :=
  ⟨h'.base.trans h.base, fun d l hl => h'.mono d l (h.mono d l hl), fun k' d hk => (h'.others k' d hk).trans (h.others k' d hk),
    fun d hd => (h'.kept d hd).trans (h.kept d hd), fun d hd hj => h'.keep d hd (h.keep d hd hj)⟩

/-- Extra invariants `I` (with an auxiliary one `J` about a class whose list is being computed) kept by the assignments. -/
structure Keeps (k : K) (I : W → Prop) (J : Nat → W → Prop) : Prop where
  start : ∀ w c, I w → w.cache k.name c = none → I (k.start w c) ∧ J c (k.start w c)
  jstart : ∀ w c d, d ≠ c → J d w → J d (k.start w c)
  jput : ∀ w c d inh, d ≠ c → J d w → J d (k.put w c inh)
  put : ∀ w c inh, I w → J c w → w.cache k.name c = none → I (k.put w c inh)

theorem compute_ok (k : K) (hl : Law k) (I : W → Prop) (J : Nat → W → Prop) (hk : Keeps k I J) (rank : Nat → Nat) (all : Nat → List Nat)
    (n : Nat) : ∀ (held : List Nat) (w : W) (c : Nat), rank c < n → (∀ h ∈ held, rank c < rank h) → RankOf rank w →
      (∀ c s, s ∈ w.supers c → w.proxy s = none) → Solves k w all → CacheOk k all w → I w →
      ∃ w', compute k n held w c = some (w', all c) ∧ Rel k J held w w' ∧ CacheOk k all w' ∧ I w' ∧
        w'.cache k.name c = some (all c) := by
  induction n with
  | zero => intro held w c h; omega
  | succ n ih =>
    intro held w c hn hheld hr hp hs hc hi
    have hnot : c ∉ held := fun hm => absurd (hheld c hm) (by omega)
    rw [compute, if_neg hnot]
    cases hcache : w.cache k.name c with
    | some l =>
      have hlc := hc.right c l hcache
      subst hlc
      exact ⟨w, rfl, Rel.refl' .., hc, hi, hcache⟩
    | none =>
      have hprox : (w.supers c).any (fun s => (w.proxy s).isSome) = false := by
        rw [List.any_eq_false]
        intro s hs
        simp [hp c s hs]
      simp only [hprox, Bool.false_eq_true, if_false]
      -- the loop
      have hg : ∀ (ss : List Nat) (v : W), (∀ s ∈ ss, rank s < rank c) → SB v w → CacheOk k all v → I v → v.cache k.name c = none →
          ∃ v', gather (fun w s => (compute k n (c :: held) w s).map fun p => (p.1, k.contrib s p.2)) v ss =
              some (v', ss.flatMap fun s => k.contrib s (all s)) ∧ Rel k J (c :: held) v v' ∧ CacheOk k all v' ∧ I v' ∧
            ∀ s ∈ ss, (v'.cache k.name s).isSome := by
        intro ss
        induction ss with
        | nil => intro v _ _ hv hiv _; exact ⟨v, rfl, Rel.refl' .., hv, hiv, by simp⟩
        | cons s ss ihs =>
          intro v hss hsb hv hiv hvc
          obtain ⟨v1, e1, r1, c1, i1, g1⟩ := ih (c :: held) v s (by have := hss s (by simp); omega)
            (by
              intro h hm
              have h1 := hss s (by simp)
              rcases List.mem_cons.1 hm with rfl | hm
              · exact h1
              · have := hheld h hm; omega)
            (by intro a b hb; rw [hsb.supers] at hb; exact hr a b hb)
            (by intro a b hb; rw [hsb.supers] at hb; rw [hsb.proxy]; exact hp a b hb)
            (by intro a; rw [hs a, hsb.supers, hl.own v w a hsb]) hv hiv
          obtain ⟨v2, e2, r2, c2, i2, g2⟩ := ihs v1 (fun x hx => hss x (by simp [hx])) (r1.base.trans hsb) c1 i1
            (by rw [r1.kept c (by simp)]; exact hvc)
          refine ⟨v2, ?_, r1.trans r2, c2, i2, ?_⟩
          · rw [gather]
            simp only [e1, Option.map_some, e2, List.flatMap_cons]
          · intro x hx
            rcases List.mem_cons.1 hx with rfl | hx
            · rw [r2.mono x _ g1]; rfl
            · exact g2 x hx
      obtain ⟨is, js⟩ := hk.start w c hi hcache
      have hsc := hl.start_cache w c
      have hsb := hl.start_base w c
      obtain ⟨v, e, r, cv, iv, gv⟩ := hg (w.supers c) (k.start w c) (hr c) hsb
        ⟨by rw [hsc]; exact hc.right, by rw [hsc, hsb.supers]; exact hc.up⟩ is (by rw [hsc]; exact hcache)
      rw [e]
      have hown : k.own v c = k.own w c := hl.own v w c (r.base.trans hsb)
      have hall : ((w.supers c).flatMap fun s => k.contrib s (all s)) ++ k.own v c = all c := by rw [hown, ← hs c]
      have hvc : v.cache k.name c = none := by rw [r.kept c (by simp), hsc]; exact hcache
      refine ⟨_, by simp only; rw [hall], ⟨?_, ?_, ?_, ?_, ?_⟩, ⟨?_, ?_⟩, ?_, ?_⟩
      · exact (hl.put_base v c _).trans (r.base.trans hsb)
      · intro d l hd
        rw [hl.put_cache]
        by_cases hdc : d = c
        · subst hdc; rw [hcache] at hd; cases hd
        · simp only [hdc, and_false, if_false]
          exact r.mono d l (by rw [hsc]; exact hd)
      · intro k' d hk'
        rw [hl.put_cache]
        simp only [hk', false_and, if_false]
        rw [r.others k' d hk', hsc]
      · intro d hd
        rw [hl.put_cache]
        have hdc : d ≠ c := fun h => hnot (h ▸ hd)
        simp only [hdc, and_false, if_false]
        rw [r.kept d (by simp [hd]), hsc]
      · intro d hd hj
        have hdc : d ≠ c := fun h => hnot (h ▸ hd)
        exact hk.jput _ _ _ _ hdc (r.keep d (by simp [hd]) (hk.jstart _ _ _ hdc hj))
      · intro d l hd
        rw [hl.put_cache] at hd
        by_cases hdc : d = c
        · subst hdc
          simp only [and_self, if_true, Option.some.injEq] at hd
          rw [← hd, hall]
        · simp only [hdc, and_false, if_false] at hd
          exact cv.right d l hd
      · intro d l hd s hs'
        rw [(hl.put_base v c _).supers] at hs'
        rw [hl.put_cache] at hd ⊢
        simp only [true_and] at hd ⊢
        by_cases hsc' : s = c
        · simp [hsc']
        · simp only [hsc', if_false]
          by_cases hdc : d = c
          · subst hdc
            rw [r.base.supers, hsb.supers] at hs'
            exact gv s hs'
          · simp only [hdc, if_false] at hd
            exact cv.up d l hd s hs'
      · exact hk.put v c _ iv (r.keep c (by simp) js) hvc
      · rw [hl.put_cache]
        simp only [and_self, if_true, hall]

end Verif.EClass
