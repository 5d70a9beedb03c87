import Verif.Proofs.EClassOverride
/-
C34 (feature IDs), C35 (derived lists), C36 (super types), C51 (features by name).

Histories: `run n (fresh kind name proxy) ops` executes the calls `ops` (reads of derived lists, modifications of the lists of features,
operations and super types of any class, resolution of super types) from classes without contents. `Allowed n w ops` says of the calls `ops`
made from `w` on that no hierarchy on the way has a cycle (its depth is below `n`), that no feature or operation is in two classes,
that the derived lists are read with resolved super types only and that names and kinds of features are not changed any more.
-/
set_option autoImplicit false
namespace Verif.EClass
open Verif.EList Verif.Notify Verif.Spec

/-- What a call answers. -/
def answer {α : Type} (r : Option (W × α)) : Option α := r.map (·.2)

/-- A hierarchy without cycles defines exactly one list per class. -/
theorem inherits_exists_unique (supers own : Nat → List Nat) (n : Nat) (h : Hier.Acyclic supers n) :
    ∃ all, Hier.Inherits supers own all ∧ ∀ all', Hier.Inherits supers own all' → all' = all := by
  obtain ⟨rank, hr, _⟩ := h
  obtain ⟨all, hs⟩ := solves_exists kFeats { supers := supers, feats := own } rank hr
  exact ⟨all, hs, fun all' hs' => solves_unique kFeats { supers := supers, feats := own } all' all rank hr hs' hs⟩

/-- C35 without cross references. After any allowed history (none hangs) the derived lists of every class are those which the current super
types, features and operations define: inherited ones in the order of the super types, then the own ones. The lists of own attributes and
references, the ID attribute, and the own containment and cross reference features are the current ones too. -/
theorem C35_lists_partial (n : Nat) (hn : 0 < n) (kind : Nat → Kind) (name : Nat → String) (proxy : Nat → Option Nat) (ops : List Op)
    (hal : Allowed n (fresh kind name proxy) ops) :
    ∃ w, run n (fresh kind name proxy) ops = some w ∧ Hier.Acyclic w.supers n ∧
      w.supers = (ops.foldl after (fresh kind name proxy)).supers ∧ w.feats = (ops.foldl after (fresh kind name proxy)).feats ∧
      w.opers = (ops.foldl after (fresh kind name proxy)).opers ∧ w.kind = (ops.foldl after (fresh kind name proxy)).kind ∧ (NoProxy w → ∀ c,
      (∀ all, Hier.Inherits w.supers w.feats all → answer (compute kFeats n [] w c) = some (all c)) ∧
      (∀ all, Hier.Inherits w.supers w.opers all → answer (compute kOps n [] w c) = some (all c)) ∧
      (∀ all, Hier.Inherits w.supers (fun d => (w.feats d).filter fun f => (w.kind f).isAttr) all →
        ∃ w', compute kAttrs n [] w c = some (w', all c) ∧ w'.ownAttrs c = (w.feats c).filter (fun f => (w.kind f).isAttr) ∧
          w'.idAttr c = (all c).find? fun f => (w.kind f).isID) ∧
      (∀ all, Hier.Inherits w.supers (fun d => (w.feats d).filter fun f => (w.kind f).isRef) all →
        (∃ w', compute kRefs n [] w c = some (w', all c) ∧ w'.ownRefs c = (w.feats c).filter fun f => (w.kind f).isRef) ∧
        answer (getAllContainments n w c) = some ((all c).filter fun f => (w.kind f).isContainment)) ∧
      (∀ all : Nat → List Nat, (∀ d, all d = (w.supers d).flatMap fun s => all s ++ [s]) → answer (compute kSupers n [] w c) = some (all c)) ∧
      answer (getSubset n w c) = some ((w.feats c).filter (fun f => (w.kind f).isContainment && !(w.kind f).isDerived),
        (w.feats c).filter (fun f => (w.kind f).isCross && !(w.kind f).isDerived))) := by
  obtain ⟨w, e, hi, ha, hx, hsame⟩ := run_ok n ops _ (fresh_inv kind name proxy) (fresh_acyclic kind name proxy n hn) (fresh_excl kind name proxy) hal
  refine ⟨w, e, ha, hsame.1, hsame.2.1, hsame.2.2.1, hsame.2.2.2.1, fun hp c => ⟨?_, ?_, ?_, ?_, ?_, ?_⟩⟩
  · intro all hs
    obtain ⟨w', e, _⟩ := read_ok .feats n w c ha hx hp hi all hs
    exact congrArg answer e
  · intro all hs
    obtain ⟨w', e, _⟩ := read_ok .ops n w c ha hx hp hi all hs
    exact congrArg answer e
  · intro all hs
    obtain ⟨w', e, sb, hi', hc, _⟩ := read_ok .attrs n w c ha hx hp hi all hs
    have := hi'.extra.attrs c _ hc
    rw [sb.feats, sb.kind] at this
    exact ⟨w', e, this⟩
  · intro all hs
    obtain ⟨w', e, sb, hi', hc, _⟩ := read_ok .refs n w c ha hx hp hi all hs
    have := hi'.extra.refs c _ hc
    rw [sb.feats, sb.kind] at this
    obtain ⟨w2, e2, _⟩ := conts_ok n w c ha hx hp hi all hs
    exact ⟨⟨w', e, this⟩, congrArg answer e2⟩
  · intro all hs
    obtain ⟨w', e, _⟩ := read_ok .supers n w c ha hx hp hi all (by
      intro d; rw [hs d]; simp [kOf, kSupers])
    exact congrArg answer e
  · obtain ⟨w', e, _⟩ := subset_ok n w c ha hx hp hi
    exact congrArg answer e

/-- C34. The ID of a feature of the class is within the feature count and leads back to the feature; own features come after all the
inherited ones, in their order; a feature the class does not have has ID -1, and an ID out of range no feature. -/
theorem C34_feature_ids (n : Nat) (hn : 0 < n) (kind : Nat → Kind) (name : Nat → String) (proxy : Nat → Option Nat) (ops : List Op)
    (hal : Allowed n (fresh kind name proxy) ops) (w : W) (hw : run n (fresh kind name proxy) ops = some w) (hp : NoProxy w)
    (all : Nat → List Nat) (hs : Hier.Inherits w.supers w.feats all) (c f : Nat) :
    ∃ w' id, getFeatureID n w c f = some (w', id) ∧
      (f ∈ all c → 0 ≤ id ∧ id < ((all c).length : Int) ∧ (all c)[id.toNat]? = some f ∧ answer (getFeature n w' c id) = some (some f)) ∧
      (∀ i : Nat, (w.feats c)[i]? = some f → id = ((((w.supers c).flatMap all).length + i : Nat) : Int)) ∧
      (f ∉ all c → id = -1) ∧
      ∀ i : Int, (i < 0 ∨ ((all c).length : Int) ≤ i) → answer (getFeature n w' c i) = some none := by
  obtain ⟨w0, e0, hi, ha, hx, _⟩ := run_ok n ops _ (fresh_inv kind name proxy) (fresh_acyclic kind name proxy n hn) (fresh_excl kind name proxy) hal
  rw [hw] at e0
  obtain rfl := Option.some.inj e0
  obtain ⟨w', e, sb, hi', hc, _⟩ := read_ok .feats n w c ha hx hp hi all hs
  have e' : compute kFeats n [] w c = some (w', all c) := e
  have hs' : Solves kFeats w' all := solves_of_sb .feats hs (sb_symm sb)
  have hacyc' : Hier.Acyclic w'.supers n := by rw [sb.supers]; exact ha
  obtain ⟨rank, hr, hb⟩ := ha
  refine ⟨w', _, by rw [getFeatureID, e']; rfl, ?_⟩
  have key := ids_ok .feats (fun _ _ => rfl) w' rank (rank_sb sb hr) all hs' (hi'.cache .feats all hs') c hc w'.featureID hi'.extra.ids f _ rfl
  have hget : ∀ i, answer (getFeature n w' c i) = some (if 0 ≤ i ∧ i < ((all c).length : Int) then (all c)[i.toNat]? else none) := by
    intro i
    obtain ⟨w2, e2, _⟩ := read_ok .feats n w' c hacyc' (excl_sb sb hx) (noproxy_sb sb hp) hi' all hs'
    have e2' : compute kFeats n [] w' c = some (w2, all c) := e2
    rw [getFeature, e2']; rfl
  refine ⟨?_, ?_, key.2.2, ?_⟩
  · intro hf
    obtain ⟨h1, h2, h3⟩ := key.1 hf
    refine ⟨h1, h2, h3, ?_⟩
    rw [hget, if_pos ⟨h1, h2⟩]
    exact congrArg some h3
  · intro i hi
    have := key.2.1 i (by simpa [kOf, kFeats, sb.feats] using hi)
    rw [sb.supers] at this
    exact this
  · intro i hi
    rw [hget, if_neg (by omega)]

/-- C34 for operations. -/
theorem C34_operation_ids (n : Nat) (hn : 0 < n) (kind : Nat → Kind) (name : Nat → String) (proxy : Nat → Option Nat) (ops : List Op)
    (hal : Allowed n (fresh kind name proxy) ops) (w : W) (hw : run n (fresh kind name proxy) ops = some w) (hp : NoProxy w)
    (all : Nat → List Nat) (hs : Hier.Inherits w.supers w.opers all) (c o : Nat) :
    ∃ id, answer (getOperationID n w c o) = some id ∧
      (o ∈ all c → 0 ≤ id ∧ id < ((all c).length : Int) ∧ (all c)[id.toNat]? = some o) ∧
      (∀ i : Nat, (w.opers c)[i]? = some o → id = ((((w.supers c).flatMap all).length + i : Nat) : Int)) ∧
      (o ∉ all c → id = -1) := by
  obtain ⟨w0, e0, hi, ha, hx, _⟩ := run_ok n ops _ (fresh_inv kind name proxy) (fresh_acyclic kind name proxy n hn) (fresh_excl kind name proxy) hal
  rw [hw] at e0
  obtain rfl := Option.some.inj e0
  obtain ⟨w', e, sb, hi', hc, _⟩ := read_ok .ops n w c ha hx hp hi all hs
  have e' : compute kOps n [] w c = some (w', all c) := e
  have hs' : Solves kOps w' all := solves_of_sb .ops hs (sb_symm sb)
  obtain ⟨rank, hr, hb⟩ := ha
  refine ⟨_, by rw [getOperationID, e']; rfl, ?_⟩
  have key := ids_ok .ops (fun _ _ => rfl) w' rank (rank_sb sb hr) all hs' (hi'.cache .ops all hs') c hc w'.operationID hi'.extra.oids o _ rfl
  refine ⟨key.1, ?_, key.2.2⟩
  intro i hi
  have := key.2.1 i (by simpa [kOf, kOps, sb.opers] using hi)
  rw [sb.supers] at this
  exact this

/-- C36. -/
theorem C36_isSuperTypeOf (n : Nat) (hn : 0 < n) (kind : Nat → Kind) (name : Nat → String) (proxy : Nat → Option Nat) (ops : List Op)
    (hal : Allowed n (fresh kind name proxy) ops) (w : W) (hw : run n (fresh kind name proxy) ops = some w) (hp : NoProxy w) (a b : Nat) :
    ∃ r, answer (isSuperTypeOf n [] w a b) = some r ∧ (r = true ↔ Hier.Reaches w.supers b a) := by
  obtain ⟨w0, e0, hi, ha, hx, _⟩ := run_ok n ops _ (fresh_inv kind name proxy) (fresh_acyclic kind name proxy n hn) (fresh_excl kind name proxy) hal
  rw [hw] at e0
  obtain rfl := Option.some.inj e0
  have ha' := ha
  obtain ⟨rank, hr, hb⟩ := ha'
  obtain ⟨all, hs⟩ := solves_exists kSupers w rank hr
  rw [reaches_iff w rank hr all hs a b]
  rw [isSuperTypeOf]
  by_cases hab : b = a
  · rw [if_pos hab]
    exact ⟨true, rfl, by simp [hab]⟩
  · rw [if_neg hab]
    obtain ⟨w', e, _⟩ := read_ok .supers n w b ha hx hp hi all hs
    have e' : compute kSupers n [] w b = some (w', all b) := e
    rw [e']
    exact ⟨_, rfl, by simp [hab]⟩

/-- C51 as long as features are not renamed: `GetEStructuralFeatureFromName` finds the last feature with the given name, in the order inherited
features, then own ones. -/
theorem C51_from_name_partial (n : Nat) (hn : 0 < n) (kind : Nat → Kind) (name : Nat → String) (proxy : Nat → Option Nat) (ops : List Op)
    (hal : Allowed n (fresh kind name proxy) ops) (w : W) (hw : run n (fresh kind name proxy) ops = some w) (hp : NoProxy w)
    (all : Nat → List Nat) (hs : Hier.Inherits w.supers w.feats all) (c : Nat) (s : String) :
    ∃ r, answer (getFromName n w c s) = some r ∧
      (∀ f, r = some f → f ∈ all c ∧ w.name f = s) ∧
      (r = none → ∀ f ∈ all c, w.name f ≠ s) ∧
      (∀ g ∈ w.feats c, w.name g = s → ∃ f ∈ w.feats c, r = some f) := by
  obtain ⟨w0, e0, hi, ha, hx, _⟩ := run_ok n ops _ (fresh_inv kind name proxy) (fresh_acyclic kind name proxy n hn) (fresh_excl kind name proxy) hal
  rw [hw] at e0
  obtain rfl := Option.some.inj e0
  obtain ⟨w', e, _⟩ := name_ok n w c s ha hx hp hi all hs
  refine ⟨_, by rw [e]; rfl, ?_, ?_, ?_⟩
  · intro f hf
    have h1 := List.mem_of_find?_eq_some hf
    have h2 := List.find?_some hf
    exact ⟨by simpa using h1, by simpa using h2⟩
  · intro hf f hm hfs
    have := List.find?_eq_none.1 hf f (by simpa using hm)
    simp [hfs] at this
  · intro g hg hgs
    rw [hs c, List.reverse_append, List.find?_append]
    cases h : (w.feats c).reverse.find? (fun f => w.name f == s) with
    | none => have := List.find?_eq_none.1 h g (by simpa using hg); simp [hgs] at this
    | some f => exact ⟨f, by simpa using List.mem_of_find?_eq_some h, rfl⟩

/-- C48 for the first call after a modification, on a class which has own operations only or inherited operations only, none of them
inherited twice, and without two operations of the same signature in the same class: the answer is an operation of the class which overrides
the given one, another operation than it, and nil only when there is none. -/
theorem C48_override_partial (n : Nat) (hn : 0 < n) (kind : Nat → Kind) (name : Nat → String) (proxy : Nat → Option Nat) (ops : List Op)
    (hal : Allowed n (fresh kind name proxy) ops) (w : W) (hw : run n (fresh kind name proxy) ops = some w) (hp : NoProxy w)
    (all : Nat → List Nat) (hs : Hier.Inherits w.supers w.opers all) (c o : Nat) (ho : o ∈ all c)
    (sig : Nat → Sig) (hcls : ∀ d p, p ∈ w.opers d → (sig p).cls = d)
    (hsig : ∀ p q, (sig p).cls = (sig q).cls → (sig p).name = (sig q).name → (sig p).params = (sig q).params → p = q)
    (hnd : (all c).Nodup) (hfirst : w.overrides c = none) (hone : w.opers c = [] ∨ (w.supers c).flatMap all = []) :
    let overrides := fun p => p ∈ all c ∧ p ≠ o ∧ Hier.Reaches w.supers (sig p).cls (sig o).cls ∧ (sig p).name = (sig o).name ∧ (sig p).params = (sig o).params
    ∃ r, answer (getOverride n sig w c o) = some r ∧ (∀ p, r = some p → overrides p) ∧ (r = none → ∀ p, ¬ overrides p) := by
  intro overrides
  obtain ⟨w0, e0, hi, ha, hx, _⟩ := run_ok n ops _ (fresh_inv kind name proxy) (fresh_acyclic kind name proxy n hn) (fresh_excl kind name proxy) hal
  rw [hw] at e0
  obtain rfl := Option.some.inj e0
  obtain ⟨w1, e1, sb, hi1, hc, _⟩ := read_ok .ops n w c ha hx hp hi all hs
  have e1' : compute kOps n [] w c = some (w1, all c) := e1
  obtain ⟨rank, hr, hb⟩ := ha
  have hov1 : w1.overrides c = none := by
    obtain ⟨w2, e2, _, _, h2, _⟩ := compute_ok kOps (law .ops) _ _ (keepsOverrides c) rank all n [] w c (hb c) (by simp) hr hp hs (hi.cache .ops all hs) hfirst
    rw [e1'] at e2
    simp only [Option.some.injEq, Prod.mk.injEq] at e2
    rw [e2.1]; exact h2
  obtain ⟨allS, hsS⟩ := solves_exists kSupers w rank hr
  -- the classes of the operations
  have hmem : ∀ p ∈ all c, p ∈ w.opers (sig p).cls ∧ Hier.Reaches w.supers c (sig p).cls := by
    intro p hpm
    obtain ⟨d, h1, h2⟩ := mem_own .ops (fun _ _ => rfl) w rank hr all hs p _ c rfl hpm
    have : (sig p).cls = d := hcls d p h1
    rw [this]; exact ⟨h1, h2⟩
  have hgood : ∀ oi ∈ all c, ∀ oj ∈ all c, (sig oj).cls = (sig oi).cls ∨ rank (sig oj).cls < rank c := by
    intro oi hoi oj hoj
    rcases hone with h | h
    · right
      obtain ⟨h1, h2⟩ := hmem oj hoj
      rcases reaches_rank hr h2 with h3 | h3
      · rw [h3, h] at h1; cases h1
      · exact h3
    · left
      have hall : all c = w.opers c := by rw [hs c, h, List.nil_append]
      rw [hcls c oj (hall ▸ hoj), hcls c oi (hall ▸ hoi)]
  obtain ⟨w2, e2, sb2, hi2⟩ := overridesFrom_ok n c sig rank hb allS (all c) w1 [] (rank_sb sb hr) (excl_sb sb hx) (noproxy_sb sb hp) hi1
    (solves_of_sb .supers hsS (sb_symm sb)) hgood
  obtain ⟨pre, post, hpp⟩ := List.append_of_mem ho
  have hans : answer (getOverride n sig w c o) = some (post.find? (fun j => ovb allS sig j o)) := by
    simp only [getOverride, e1', hov1, e2, answer, Option.map_some]
    rw [hpp, ovFrom_lookup _ _ _ _ (hpp ▸ hnd)]
    simp
  have hovb : ∀ p, ovb allS sig p o = true ↔ (Hier.Reaches w.supers (sig p).cls (sig o).cls ∧ (sig p).name = (sig o).name ∧ (sig p).params = (sig o).params) := by
    intro p
    rw [reaches_iff w rank hr allS hsS]
    simp only [ovb, Bool.and_eq_true, Bool.or_eq_true, decide_eq_true_eq, List.contains_iff_mem, beq_iff_eq]
    constructor
    · rintro ⟨⟨h1, h2⟩, h3⟩; exact ⟨h1, h2.symm, h3⟩
    · rintro ⟨h1, h2, h3⟩; exact ⟨⟨h1, h2.symm⟩, h3⟩
  refine ⟨_, hans, ?_, ?_⟩
  · intro p hpf
    have h1 := List.mem_of_find?_eq_some hpf
    have h2 := (hovb p).1 (by simpa using List.find?_some hpf)
    refine ⟨by rw [hpp]; simp [h1], ?_, h2⟩
    rintro rfl
    rw [hpp] at hnd
    exact (List.nodup_cons.1 (List.nodup_append.1 hnd).2.1).1 h1
  · intro hnone p hop
    obtain ⟨hpm, hpo, hov⟩ := hop
    have hstrict : (sig p).cls ≠ (sig o).cls := fun h => hpo (hsig p o h hov.2.1 hov.2.2)
    obtain ⟨hp1, hp2⟩ := hmem p hpm
    obtain ⟨ho1, ho2⟩ := hmem o ho
    -- o is inherited by the class of p
    have hoin : o ∈ (w.supers (sig p).cls).flatMap all := by
      rcases reaches_cases hov.1 with h | ⟨s, h, r⟩
      · exact absurd h hstrict
      · exact List.mem_flatMap.2 ⟨_, h, own_mem .ops (fun _ _ => rfl) w all hs o _ _ r ho1⟩
    obtain ⟨a, b, hab⟩ := List.append_of_mem hoin
    obtain ⟨a', b', hab'⟩ := List.append_of_mem hp1
    obtain ⟨l1, l2, hl⟩ := block_of .ops (fun _ _ => rfl) w all hs c _ hp2
    have hblock : pre ++ o :: post = (l1 ++ a) ++ o :: (b ++ a') ++ p :: (b' ++ l2) := by
      rw [← hpp, hl, hs, hab, hab']; simp
    obtain ⟨q, hq⟩ := find_after (fun j => ovb allS sig j o) pre post o p (hpp ▸ hnd) ⟨_, _, _, hblock⟩ ((hovb p).2 hov)
    rw [hq] at hnone
    cases hnone

/-! ### Violations -/

def tFeats (c : Nat) (f : Nat) : Op := .feats c (.op (.add f))
def tOpers (c : Nat) (f : Nat) : Op := .opers c (.op (.add f))
def tSupers (c : Nat) (s : Nat) : Op := .supers c (.op (.add s))

/-- C35 fails for `GetEAllCrossReferences`: class 0 with the cross reference 10; after the list has been read, the cross reference 11 is
added and the list still is that of before. -/
theorem C35_cross_references_violated :
    let kind := fun _ => Kind.ref false false false
    ((run 3 (fresh kind (fun _ => "") (fun _ => none)) [tFeats 0 10, .crossReferences 0, tFeats 0 11]).bind fun w =>
      (getAllCrossReferences 3 w 0).map fun p => (w.feats 0, p.2)) = some ([10, 11], [10]) := by decide

/-- C35 fails when a reference becomes a containment reference after the list of all containments has been read. -/
theorem C35_containment_changed_violated :
    let kind := fun _ => Kind.ref false false false
    ((run 3 (fresh kind (fun _ => "") (fun _ => none)) [tFeats 0 10, .containments 0, .setKind 10 (.ref true false false)]).bind fun w =>
      (getAllContainments 3 w 0).map fun p => (w.feats 0, (w.kind 10).isContainment, p.2)) = some ([10], true, []) := by decide

/-- C35 fails with a super type which is an unresolved proxy: reading a derived list never returns. -/
theorem C35_proxy_super_type_violated (n : Nat) :
    let w : W := { supers := fun c => if c = 1 then [7] else [], proxy := fun c => if c = 7 then some 0 else none }
    compute kFeats n [] w 1 = none := by
  cases n with
  | zero => rfl
  | succ n => simp [compute, kFeats]

/-- C51 fails after a renaming: feature 10 is not found by its new name and is still found by its former one. -/
theorem C51_renamed_violated :
    ((run 3 (fresh (fun _ => .attr false) (fun _ => "a") (fun _ => none)) [tFeats 0 10, .fromName 0 "a", .rename 10 "b"]).bind fun w =>
      (getFromName 3 w 0 "b").bind fun p => (getFromName 3 w 0 "a").map fun q => (w.name 10, p.2, q.2)) = some ("b", none, some 10) := by decide

/-- C48 fails: a class with an own and an inherited operation never answers, since the map is built with the mutex of the class locked and
the super types of the class are asked for with the mutex locked again. -/
theorem C48_hang_violated (n : Nat) :
    let w : W := { supers := fun c => if c = 1 then [0] else [], opers := fun c => if c = 0 then [20] else if c = 1 then [21] else [] }
    let sig : Nat → Sig := fun o => if o = 20 then ⟨0, "op", []⟩ else ⟨1, "op", []⟩
    getOverride n sig w 1 20 = none := by
  match n with
  | 0 => rfl
  | 1 => rfl
  | n + 2 =>
    simp [getOverride, compute, gather, kOps, setCache, upd, overridesFrom, overridesOf, isOverrideOf, isSuperTypeOf]

/-- C48 fails: an operation inherited twice (class 3 of super types 1 and 2, both of super type 0) overrides itself. -/
theorem C48_diamond_violated :
    let w : W := { supers := fun c => if c = 3 then [1, 2] else if c = 1 ∨ c = 2 then [0] else [], opers := fun c => if c = 0 then [20] else [] }
    let sig : Nat → Sig := fun _ => ⟨0, "op", []⟩
    answer (getOverride 4 sig w 3 20) = some (some 20) := by decide

/-! ### Concrete cases -/

/-- Class 1 with super type 0; both have a feature and an operation; lists are read between the modifications. -/
def demo : List Op := [tFeats 0 10, tOpers 0 20, .read .feats 1, tSupers 1 0, .read .feats 1, tFeats 1 11, .containments 1, .fromName 1 "x"]

theorem demo_allowed : Allowed 2 (fresh (fun _ => .ref true false false) (fun _ => "x") (fun _ => none)) demo := by
  have hnp : ∀ w : W, w.proxy = (fun _ => none) → NoProxy w := fun w h c s _ => by rw [h]
  have ac : ∀ s : Nat → List Nat, (∀ c, s c = if c = 1 then [0] else []) → Hier.Acyclic s 2 := by
    intro s hs
    refine ⟨fun c => if c = 1 then 1 else 0, ?_, ?_⟩
    · intro c x hx; rw [hs] at hx; split at hx
      · simp only [List.mem_singleton] at hx; simp [*]
      · cases hx
    · intro c; dsimp; split <;> omega
  have ac0 : ∀ s : Nat → List Nat, (∀ c, s c = []) → Hier.Acyclic s 2 := by
    intro s hs
    exact ⟨fun _ => 0, ⟨fun c x hx => (by rw [hs] at hx; cases hx), fun _ => Nat.zero_lt_two⟩⟩
  have ex : ∀ w : W, (∀ c f, f ∈ w.feats c → f = c + 10) → (∀ c f, f ∈ w.opers c → f = c + 20) → (∀ c, (w.feats c).Nodup) → (∀ c, (w.opers c).Nodup) → Excl w := by
    intro w h1 h2 h3 h4
    exact ⟨h3, fun c d f hc hd => by have := h1 c f hc; have := h1 d f hd; omega, h4, fun c d f hc hd => by have := h2 c f hc; have := h2 d f hd; omega⟩
  have two : ∀ (g : Nat → List Nat) (l0 l1 : List Nat) (k : Nat), g 0 = l0 → g 1 = l1 → (∀ c, g (c + 2) = []) → (l0 = [] ∨ l0 = [k]) → (l1 = [] ∨ l1 = [k + 1]) →
      (∀ c f, f ∈ g c → f = c + k) ∧ ∀ c, (g c).Nodup := by
    intro g l0 l1 k h0 h1 h2 h3 h4
    constructor
    · rintro (_ | _ | c) f hf
      · rw [h0] at hf; rcases h3 with h | h <;> simp [h] at hf; omega
      · rw [h1] at hf; rcases h4 with h | h <;> simp [h] at hf; omega
      · rw [h2] at hf; cases hf
    · rintro (_ | _ | c)
      · rw [h0]; rcases h3 with h | h <;> simp [h]
      · rw [h1]; rcases h4 with h | h <;> simp [h]
      · rw [h2]; simp
  have exx : ∀ w : W, (∀ c, w.feats (c + 2) = []) → (∀ c, w.opers (c + 2) = []) → (w.feats 0 = [] ∨ w.feats 0 = [10]) → (w.feats 1 = [] ∨ w.feats 1 = [11]) →
      (w.opers 0 = [] ∨ w.opers 0 = [20]) → (w.opers 1 = [] ∨ w.opers 1 = [21]) → Excl w := by
    intro w a b h1 h2 h3 h4
    have f := two w.feats _ _ 10 rfl rfl a h1 h2
    have o := two w.opers _ _ 20 rfl rfl b h3 h4
    exact ex w f.1 o.1 f.2 o.2
  have acc : ∀ s : Nat → List Nat, s 0 = [] → (s 1 = [] ∨ s 1 = [0]) → (∀ c, s (c + 2) = []) → Hier.Acyclic s 2 := by
    intro s h0 h1 h2
    rcases h1 with h1 | h1
    · exact ac0 s (by rintro (_ | _ | c) <;> simp [*])
    · exact ac s (by rintro (_ | _ | c) <;> simp [*])
  refine ⟨⟨acc _ rfl (by decide) (fun c => rfl), exx _ (fun c => rfl) (fun c => rfl) (by decide) (by decide) (by decide) (by decide), ?_⟩,
    ⟨acc _ rfl (by decide) (fun c => rfl), exx _ (fun c => rfl) (fun c => rfl) (by decide) (by decide) (by decide) (by decide), ?_⟩,
    ⟨acc _ rfl (by decide) (fun c => rfl), exx _ (fun c => rfl) (fun c => rfl) (by decide) (by decide) (by decide) (by decide), ?_⟩,
    ⟨acc _ rfl (by decide) (fun c => rfl), exx _ (fun c => rfl) (fun c => rfl) (by decide) (by decide) (by decide) (by decide), ?_⟩,
    ⟨acc _ rfl (by decide) (fun c => rfl), exx _ (fun c => rfl) (fun c => rfl) (by decide) (by decide) (by decide) (by decide), ?_⟩,
    ⟨acc _ rfl (by decide) (fun c => rfl), exx _ (fun c => rfl) (fun c => rfl) (by decide) (by decide) (by decide) (by decide), ?_⟩,
    ⟨acc _ rfl (by decide) (fun c => rfl), exx _ (fun c => rfl) (fun c => rfl) (by decide) (by decide) (by decide) (by decide), ?_⟩,
    ⟨acc _ rfl (by decide) (fun c => rfl), exx _ (fun c => rfl) (fun c => rfl) (by decide) (by decide) (by decide) (by decide), ?_⟩, trivial⟩
  all_goals first | exact hnp _ rfl | exact (fun h => h) | exact ⟨fun h => h, hnp _ rfl⟩

/-- What the calls answer there: class 1 has the features 10 and 11 with IDs 0 and 1, class 0 is its super type, the name "x" finds the own
feature. -/
example : ((run 2 (fresh (fun _ => .ref true false false) (fun _ => "x") (fun _ => none)) demo).map fun w =>
    (answer (compute kFeats 2 [] w 1), answer (isSuperTypeOf 2 [] w 0 1), answer (isSuperTypeOf 2 [] w 1 0), answer (getFromName 2 w 1 "x"))) =
    some (some [10, 11], some true, some false, some (some 11)) := by decide

example : ((run 2 (fresh (fun _ => .ref true false false) (fun _ => "x") (fun _ => none)) demo).map fun w =>
    (answer (getFeatureID 2 w 1 10), answer (getFeatureID 2 w 1 11), answer (getFeatureID 2 w 0 11), answer (getAllContainments 2 w 1))) =
    some (some 0, some 1, some (-1), some [10, 11]) := by
  decide +kernel

/-- An operation of class 1 overriding the one of class 0, seen from class 2 which has no own operations. -/
example :
    let w : W := { supers := fun c => if c = 2 then [1] else if c = 1 then [0] else [], opers := fun c => if c = 0 then [20] else if c = 1 then [21] else [] }
    let sig : Nat → Sig := fun o => if o = 20 then ⟨0, "op", []⟩ else ⟨1, "op", []⟩
    (answer (getOverride 4 sig w 2 20), answer (getOverride 4 sig w 2 21)) = (some (some 21), some none) := by decide

end Verif.EClass
