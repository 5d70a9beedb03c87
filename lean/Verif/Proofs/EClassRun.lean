import Verif.Proofs.EClassStep
set_option autoImplicit false
namespace Verif.EClass
open Verif.EList Verif.Notify Verif.Spec

theorem emit_le {α : Type} (c : NCfg) (e : Event) (o n : Payload α) (p : Int) : (emit c e o n p).length ≤ 1 := by
  unfold emit
  split <;> simp

theorem nstep_le {α : Type} [DecidableEq α] [Inhabited α] (c : NCfg) (data : List α) (op : NOp α) : (nstep c data op).2.length ≤ 1 := by
  have he := fun e (o n : Payload α) (p : Int) => emit_le c e o n p
  cases op with
  | op o =>
    cases o <;> simp only [nstep] <;> (repeat' split) <;>
      simp only [nDoAdd, nDoAddAll, nDoInsert, nDoInsertAll, nDoMove, nDoRemove, nDoRemoveRange, nRemoveAll, nDoSet, nDoClear,
        returning, Res.andEmit] <;>
      (repeat' split) <;> first | exact he _ _ _ _ | simp
  | _ => 
    simp only [nstep] <;> (repeat' split) <;> simp only [returning, Res.andEmit] <;> (repeat' split) <;> first | exact he _ _ _ _ | simp

theorem replay_cases (data data' : List Nat) (ns : List (Notif Nat)) (h1 : ns.length ≤ 1) (h2 : Replay.applyAll data ns = some data') :
    (ns = [] ∧ data' = data) ∨ ∃ x, ns = [x] ∧ Replay.apply data x = some data' := by
  cases ns with
  | nil => left; simp only [Replay.applyAll, Option.some.injEq] at h2; exact ⟨rfl, h2.symm⟩
  | cons x ns =>
    cases ns with
    | cons y ns => simp only [List.length_cons] at h1; omega
    | nil =>
      right
      refine ⟨x, rfl, ?_⟩
      simp only [Replay.applyAll] at h2
      cases h : Replay.apply data x with
      | none => rw [h] at h2; simp at h2
      | some d => rw [h] at h2; simpa using h2

/-- The notifications of a list operation and the list: nothing has changed, or one notification tells the change. -/
theorem nstep_cases (c : Nat) (data : List Nat) (op : NOp Nat) (hok : ¬ pastEnd data op) :
    ((nstep (listCfg c) data op).2 = [] ∧ (nstep (listCfg c) data op).1.data = data) ∨
    ∃ x, (nstep (listCfg c) data op).2 = [x] ∧ Replay.apply data x = some (nstep (listCfg c) data op).1.data :=
  replay_cases _ _ _ (nstep_le (listCfg c) data op) (nstep_replay (listCfg c) rfl data op hok)

theorem upd_self {α : Type} (f : Nat → α) (c : Nat) : upd f c (f c) = f := by
  funext d; simp only [upd]; split
  · subst_vars; rfl
  · rfl

/-- The lists after an operation. -/
def after (w : W) : Op → W
  | .feats c op => { w with feats := upd w.feats c (nstep (listCfg c) (w.feats c) op).1.data }
  | .opers c op => { w with opers := upd w.opers c (nstep (listCfg c) (w.opers c) op).1.data }
  | .supers c op => { w with supers := upd w.supers c (nstep (listCfg c) (w.supers c) op).1.data }
  | .resolveSuper c i =>
    match (w.supers c)[i]? with
    | none => w
    | some p =>
      match w.proxy p with
      | none => w
      | some r => { w with supers := upd w.supers c ((w.supers c).set i r) }
  | _ => w

/-- What a program may do: every hierarchy on its way is without cycles, a feature or operation is in one class only, super types are resolved
before the derived lists are read or the super types are modified. -/
structure Ok (n : Nat) (w : W) (op : Op) : Prop where
  acyc : Hier.Acyclic (after w op).supers n
  excl : Excl (after w op)
  other : match op with
    | .feats c o => ¬ pastEnd (w.feats c) o
    | .opers c o => ¬ pastEnd (w.opers c) o
    | .supers c o => ¬ pastEnd (w.supers c) o ∧ NoProxy w
    | .resolveSuper _ _ => True
    | .rename _ _ => False
    | .setKind _ _ => False
    | _ => NoProxy w

def Same (w w' : W) : Prop := w.supers = w'.supers ∧ w.feats = w'.feats ∧ w.opers = w'.opers ∧ w.kind = w'.kind ∧ w.name = w'.name ∧
  w.proxy = w'.proxy

theorem SB.same {w w' : W} (h : SB w w') : Same w w' := ⟨h.supers, h.feats, h.opers, h.kind, h.name, h.proxy⟩

theorem conts_ok (n : Nat) (w : W) (c : Nat) (ha : Hier.Acyclic w.supers n) (hx : Excl w) (hp : NoProxy w) (hi : Inv w)
    (all : Nat → List Nat) (hs : Solves kRefs w all) :
    ∃ w', getAllContainments n w c = some (w', (all c).filter fun f => (w.kind f).isContainment) ∧ SB w' w ∧ Inv w' := by
  obtain ⟨w1, e, sb, hi1, _⟩ := read_ok .refs n w c ha hx hp hi all hs
  have e' : compute kRefs n [] w c = some (w1, all c) := e
  have hs1 : Solves kRefs w1 all := solves_of_sb .refs hs ⟨sb.supers.symm, sb.feats.symm, sb.opers.symm, sb.kind.symm, sb.name.symm, sb.proxy.symm, sb.subs.symm⟩
  simp only [getAllContainments, e']
  cases hc : w1.cache .conts c with
  | some l =>
    refine ⟨w1, ?_, sb, hi1⟩
    rw [hi1.conts all hs1 c l hc, sb.kind]
  | none =>
    refine ⟨setCache w1 .conts c ((all c).filter fun f => (w.kind f).isContainment), ?_,
      ⟨sb.supers, sb.feats, sb.opers, sb.kind, sb.name, sb.proxy, sb.subs⟩, ?_⟩
    · rw [sb.kind]
    apply inv_setCache_conts w1 hi1
    intro all' hs'
    obtain ⟨rank, hr, _⟩ := ha
    rw [solves_unique kRefs w1 all all' rank (by intro a b hb; exact hr a b (by rw [← sb.supers]; exact hb)) hs1 hs', sb.kind]

theorem cross_inv (n : Nat) (w : W) (c : Nat) (ha : Hier.Acyclic w.supers n) (hx : Excl w) (hp : NoProxy w) (hi : Inv w) :
    ∃ w' l, getAllCrossReferences n w c = some (w', l) ∧ SB w' w ∧ Inv w' := by
  obtain ⟨rank, hr, hb⟩ := ha
  obtain ⟨all, hs⟩ := solves_exists kRefs w rank hr
  obtain ⟨w1, e, sb, hi1, _⟩ := read_ok .refs n w c ⟨rank, hr, hb⟩ hx hp hi all hs
  have e' : compute kRefs n [] w c = some (w1, all c) := e
  simp only [getAllCrossReferences, e']
  cases hc : w1.cache .cross c with
  | some l => exact ⟨w1, l, rfl, sb, hi1⟩
  | none => exact ⟨_, _, rfl, ⟨sb.supers, sb.feats, sb.opers, sb.kind, sb.name, sb.proxy, sb.subs⟩, inv_setCache_cross w1 hi1 c _⟩

theorem subset_ok (n : Nat) (w : W) (c : Nat) (ha : Hier.Acyclic w.supers n) (hx : Excl w) (hp : NoProxy w) (hi : Inv w) :
    ∃ w', getSubset n w c = some (w', ((w.feats c).filter (fun f => (w.kind f).isContainment && !(w.kind f).isDerived),
        (w.feats c).filter (fun f => (w.kind f).isCross && !(w.kind f).isDerived))) ∧ SB w' w ∧ Inv w' := by
  obtain ⟨rank, hr, hb⟩ := ha
  obtain ⟨all, hs⟩ := solves_exists kFeats w rank hr
  obtain ⟨w1, e, sb, hi1, hc1, _⟩ := read_ok .feats n w c ⟨rank, hr, hb⟩ hx hp hi all hs
  have e' : compute kFeats n [] w c = some (w1, all c) := e
  simp only [getSubset, e']
  cases hc : w1.subset c with
  | some x =>
    refine ⟨w1, ?_, sb, hi1⟩
    rw [hi1.extra.subset c _ x hc1 hc, sb.kind, sb.feats]
  | none =>
    refine ⟨{ w1 with subset := upd w1.subset c (some ((w.feats c).filter (fun f => (w.kind f).isContainment && !(w.kind f).isDerived),
        (w.feats c).filter (fun f => (w.kind f).isCross && !(w.kind f).isDerived))) }, by simp only [sb.kind, sb.feats], ⟨sb.supers, sb.feats, sb.opers, sb.kind, sb.name, sb.proxy, sb.subs⟩, ?_⟩
    refine ⟨hi1.subs, fun k all hs => ?_, fun all hs => ?_, ?_⟩
    · have := hi1.cache k all (solves_of_sb k hs ⟨rfl, rfl, rfl, rfl, rfl, rfl, rfl⟩)
      exact ⟨this.right, this.up⟩
    · exact hi1.conts all (solves_of_sb .refs hs ⟨rfl, rfl, rfl, rfl, rfl, rfl, rfl⟩)
    · refine ⟨hi1.extra.ids, hi1.extra.oids, hi1.extra.attrs, hi1.extra.refs, ?_, hi1.extra.names⟩
      intro d l x hd hxx
      by_cases hdc : d = c
      · subst hdc
        simp only [upd, if_true, Option.some.injEq] at hxx
        rw [← hxx]
        simp only [sb.kind, sb.feats]
      · simp only [upd, hdc, if_false] at hxx
        exact hi1.extra.subset d l x hd hxx

theorem lookup_name (l : List Nat) (nm : Nat → String) (s : String) :
    ((l.map fun f => (nm f, f)).reverse).lookup s = l.reverse.find? (fun f => nm f == s) := by
  rw [← List.map_reverse]
  induction l.reverse with
  | nil => rfl
  | cons f l ih =>
    simp only [List.map_cons, List.lookup_cons, List.find?_cons, ih]
    rw [show (s == nm f) = (nm f == s) from Bool.beq_comm]

theorem name_ok (n : Nat) (w : W) (c : Nat) (s : String) (ha : Hier.Acyclic w.supers n) (hx : Excl w) (hp : NoProxy w) (hi : Inv w)
    (all : Nat → List Nat) (hs : Solves kFeats w all) :
    ∃ w', getFromName n w c s = some (w', (all c).reverse.find? (fun f => w.name f == s)) ∧ SB w' w ∧ Inv w' := by
  obtain ⟨w1, e, sb, hi1, hc1, _⟩ := read_ok .feats n w c ha hx hp hi all hs
  have e' : compute kFeats n [] w c = some (w1, all c) := e
  simp only [getFromName, e']
  cases hc : w1.nameMap c with
  | some x =>
    refine ⟨w1, ?_, sb, hi1⟩
    simp only [hi1.extra.names c _ x hc1 hc, lookup_name, sb.name]
  | none =>
    refine ⟨{ w1 with nameMap := upd w1.nameMap c (some ((all c).map fun f => (w.name f, f)).reverse) },
      by simp only [lookup_name, sb.name], ⟨sb.supers, sb.feats, sb.opers, sb.kind, sb.name, sb.proxy, sb.subs⟩, ?_⟩
    refine ⟨hi1.subs, fun k all hs => ?_, fun all hs => ?_, ?_⟩
    · have := hi1.cache k all (solves_of_sb k hs ⟨rfl, rfl, rfl, rfl, rfl, rfl, rfl⟩)
      exact ⟨this.right, this.up⟩
    · exact hi1.conts all (solves_of_sb .refs hs ⟨rfl, rfl, rfl, rfl, rfl, rfl, rfl⟩)
    · refine ⟨hi1.extra.ids, hi1.extra.oids, hi1.extra.attrs, hi1.extra.refs, hi1.extra.subset, ?_⟩
      intro d l x hd hxx
      by_cases hdc : d = c
      · subst hdc
        change w1.cache .feats d = some l at hd
        have hc1' : w1.cache .feats d = some (all d) := hc1
        rw [hc1'] at hd
        simp only [Option.some.injEq] at hd
        subst hd
        simp only [upd, if_true, Option.some.injEq] at hxx
        rw [← hxx]
        change _ = ((all d).map fun f => (w1.name f, f)).reverse
        rw [sb.name]
      · simp only [upd, hdc, if_false] at hxx
        exact hi1.extra.names d l x hd hxx

/-- A change of the super types of `c` told by one notification. -/
theorem supers_ok (n : Nat) (w : W) (c : Nat) (x : Notif Nat) (s' : List Nat) (hi : Inv w) (ha : Hier.Acyclic w.supers n)
    (ha1 : Hier.Acyclic (upd w.supers c s') n)
    (hcnt : ∀ a e, ((subsOn c { w with supers := upd w.supers c s' } x).subs a).count e = if e = c then s'.count a else (w.subs a).count e) :
    ∃ w', notified n .supers c { w with supers := upd w.supers c s' } [x] = some w' ∧ Inv w' ∧ Same w' { w with supers := upd w.supers c s' } := by
  obtain ⟨subs', hsub⟩ := subsOn_frame c { w with supers := upd w.supers c s' } x
  rw [hsub] at hcnt
  simp only [notified, if_true, hsub]
  obtain ⟨w2, e, hi2, sb⟩ := inv_modify .supers n w { w with supers := upd w.supers c s', subs := subs' } c hi ha ha1
    (by
      intro a e
      change (subs' a).count e = ((upd w.supers c s') e).count a
      rw [hcnt a e]
      by_cases hec : e = c
      · subst hec; simp [upd]
      · simp only [upd, hec, if_false]; exact hi.subs a e)
    (by intro d hd; simp [upd, hd])
    (by intro k d hd; cases k <;> rfl)
    (by intro k; cases k <;> exact .inl rfl)
    (by intro d _; rfl) (by intro d _; rfl) rfl rfl rfl rfl rfl rfl rfl rfl rfl rfl
  rw [e]
  exact ⟨w2, rfl, hi2, ⟨sb.supers, sb.feats, sb.opers, sb.kind, sb.name, sb.proxy⟩⟩

theorem step_ok (n : Nat) (w : W) (op : Op) (hi : Inv w) (ha : Hier.Acyclic w.supers n) (hx : Excl w) (ok : Ok n w op) :
    ∃ w', step n w op = some w' ∧ Inv w' ∧ Same w' (after w op) := by
  have ha' := ha
  obtain ⟨rank, hr, hb⟩ := ha'
  have hacyc := ok.acyc
  have hoth := ok.other
  cases op with
  | read k c =>
    obtain ⟨all, hs⟩ := solves_exists (kOf k) w rank hr
    obtain ⟨w', e, sb, hi', _⟩ := read_ok k n w c ha hx hoth hi all hs
    exact ⟨w', by simp [step, e], hi', sb.same⟩
  | containments c =>
    obtain ⟨all, hs⟩ := solves_exists kRefs w rank hr
    obtain ⟨w', e, sb, hi'⟩ := conts_ok n w c ha hx hoth hi all hs
    exact ⟨w', by simp [step, e], hi', sb.same⟩
  | crossReferences c =>
    obtain ⟨w', l, e, sb, hi'⟩ := cross_inv n w c ha hx hoth hi
    exact ⟨w', by simp [step, e], hi', sb.same⟩
  | subset c =>
    obtain ⟨w', e, sb, hi'⟩ := subset_ok n w c ha hx hoth hi
    exact ⟨w', by simp [step, e], hi', sb.same⟩
  | fromName c s =>
    obtain ⟨all, hs⟩ := solves_exists kFeats w rank hr
    obtain ⟨w', e, sb, hi'⟩ := name_ok n w c s ha hx hoth hi all hs
    exact ⟨w', by simp [step, e], hi', sb.same⟩
  | feats c o =>
    simp only [step, after]
    rcases nstep_cases c (w.feats c) o hoth with ⟨h1, h2⟩ | ⟨x, h1, h2⟩
    · rw [h1, h2, upd_self]
      exact ⟨w, rfl, hi, rfl, rfl, rfl, rfl, rfl, rfl⟩
    · rw [h1]
      generalize (nstep (listCfg c) (w.feats c) o).1.data = s' at *
      simp only [notified, reduceCtorEq, if_false]
      obtain ⟨w2, e, hi2, sb⟩ := inv_modify .feats n w { w with feats := upd w.feats c s' } c hi ha ha hi.subs
        (fun _ _ => rfl)
        (by intro k d hd; cases k <;> simp [kOf, kSupers, kFeats, kAttrs, kRefs, kOps, upd, hd])
        (by intro k; cases k <;> first | exact .inl rfl | exact .inr ⟨rfl, fun _ => rfl⟩)
        (by intro d hd; rcases hd with hd | hd
            · simp [upd, hd]
            · cases hd)
        (by intro d _; rfl) rfl rfl rfl rfl rfl rfl rfl rfl rfl rfl
      rw [e]
      exact ⟨w2, rfl, hi2, sb.same⟩
  | opers c o =>
    simp only [step, after]
    rcases nstep_cases c (w.opers c) o hoth with ⟨h1, h2⟩ | ⟨x, h1, h2⟩
    · rw [h1, h2, upd_self]
      exact ⟨w, rfl, hi, rfl, rfl, rfl, rfl, rfl, rfl⟩
    · rw [h1]
      generalize (nstep (listCfg c) (w.opers c) o).1.data = s' at *
      simp only [notified, reduceCtorEq, if_false]
      obtain ⟨w2, e, hi2, sb⟩ := inv_modify .opers n w { w with opers := upd w.opers c s' } c hi ha ha hi.subs
        (fun _ _ => rfl)
        (by intro k d hd; cases k <;> simp [kOf, kSupers, kFeats, kAttrs, kRefs, kOps, upd, hd])
        (by intro k; cases k <;> first | exact .inl rfl | exact .inr ⟨rfl, fun _ => rfl⟩)
        (by intro d _; rfl)
        (by intro d hd; rcases hd with hd | hd
            · simp [upd, hd]
            · cases hd)
        rfl rfl rfl rfl rfl rfl rfl rfl rfl rfl
      rw [e]
      exact ⟨w2, rfl, hi2, sb.same⟩
  | supers c o =>
    simp only [step, after] at *
    rcases nstep_cases c (w.supers c) o hoth.1 with ⟨h1, h2⟩ | ⟨x, h1, h2⟩
    · rw [h1, h2, upd_self]
      exact ⟨w, rfl, hi, rfl, rfl, rfl, rfl, rfl, rfl⟩
    · rw [h1]
      exact supers_ok n w c x _ hi ha hacyc (subsOn_count c _ x (w.supers c) _ h2 (fun a => hi.subs a c))
  | resolveSuper c i =>
    simp only [step, after] at *
    cases hg : (w.supers c)[i]? with
    | none => exact ⟨w, rfl, hi, rfl, rfl, rfl, rfl, rfl, rfl⟩
    | some p =>
      cases hp : w.proxy p with
      | none => simp only [hp]; exact ⟨w, rfl, hi, rfl, rfl, rfl, rfl, rfl, rfl⟩
      | some r =>
        simp only [hp]
        rw [hg] at hacyc
        simp only [hp] at hacyc
        by_cases hrp : r = p
        · rw [if_pos hrp]
          refine ⟨w, rfl, hi, ?_, rfl, rfl, rfl, rfl, rfl⟩
          subst hrp
          have : (w.supers c).set i r = w.supers c := by
            apply List.ext_getElem?
            intro j
            rw [List.getElem?_set]
            split
            · subst_vars; split
              · rw [hg]
              · rw [hg]; have := (List.getElem?_eq_some_iff.1 hg).1; contradiction
            · rfl
          change w.supers = upd w.supers c _
          rw [this, upd_self]
        · rw [if_neg hrp]
          apply supers_ok n w c _ _ hi ha hacyc
          exact subsOn_count c _ ⟨some c, 0, .set, .elem p, .elem r, i⟩ (w.supers c) _ (by simp [Replay.apply, hg]) (fun a => hi.subs a c)
  | rename f nm => exact absurd hoth (by simp)
  | setKind f k => exact absurd hoth (by simp)

/-- Programs allowed from given lists on: every call finds the lists the previous calls have left. -/
def Allowed (n : Nat) : W → List Op → Prop
  | _, [] => True
  | w, op :: ops => Ok n w op ∧ Allowed n (after w op) ops

theorem after_same {w v : W} (h : Same w v) (op : Op) : Same (after w op) (after v op) := by
  obtain ⟨h1, h2, h3, h4, h5, h6⟩ := h
  cases op with
  | resolveSuper c i =>
    simp only [after, h1, h6]
    split
    · exact ⟨h1, h2, h3, h4, h5, h6⟩
    · split
      · exact ⟨h1, h2, h3, h4, h5, h6⟩
      · exact ⟨rfl, h2, h3, h4, h5, rfl⟩
  | _ => simp only [after, h1, h2, h3]; exact ⟨by first | rfl | exact h1, by first | rfl | exact h2, by first | rfl | exact h3, h4, h5, h6⟩

theorem excl_same {w v : W} (h : Same w v) (hx : Excl w) : Excl v := by
  obtain ⟨h1, h2, h3, h4, h5, h6⟩ := h
  exact ⟨by rw [← h2]; exact hx.fn, by rw [← h2]; exact hx.f1, by rw [← h3]; exact hx.on, by rw [← h3]; exact hx.o1⟩

theorem Same.symm {w v : W} (h : Same w v) : Same v w := by
  obtain ⟨h1, h2, h3, h4, h5, h6⟩ := h
  exact ⟨h1.symm, h2.symm, h3.symm, h4.symm, h5.symm, h6.symm⟩

theorem ok_same {n : Nat} {w v : W} (h : Same w v) {op : Op} (ok : Ok n w op) : Ok n v op := by
  have ha := after_same h op
  refine ⟨by rw [← ha.1]; exact ok.acyc, excl_same ha ok.excl, ?_⟩
  have hp : NoProxy w → NoProxy v := by intro hp c s; rw [← h.1, ← h.2.2.2.2.2]; exact hp c s
  have := ok.other
  cases op with
  | feats c o => rw [← h.2.1]; exact this
  | opers c o => rw [← h.2.2.1]; exact this
  | supers c o => exact ⟨by rw [← h.1]; exact this.1, hp this.2⟩
  | resolveSuper c i => trivial
  | rename _ _ => exact this
  | setKind _ _ => exact this
  | _ => exact hp this

theorem allowed_same {n : Nat} {ops : List Op} : ∀ {w v : W}, Same w v → Allowed n w ops → Allowed n v ops := by
  induction ops with
  | nil => intros; trivial
  | cons op ops ih => intro w v h hal; exact ⟨ok_same h hal.1, ih (after_same h op) hal.2⟩

theorem fold_same {ops : List Op} : ∀ {w v : W}, Same w v → Same (ops.foldl after w) (ops.foldl after v) := by
  induction ops with
  | nil => intro w v h; exact h
  | cons o ops ih => intro w v h; exact ih (after_same h o)

theorem run_ok (n : Nat) (ops : List Op) : ∀ w, Inv w → Hier.Acyclic w.supers n → Excl w → Allowed n w ops →
    ∃ w', run n w ops = some w' ∧ Inv w' ∧ Hier.Acyclic w'.supers n ∧ Excl w' ∧ Same w' (ops.foldl after w) := by
  induction ops with
  | nil => intro w hi ha hx _; exact ⟨w, rfl, hi, ha, hx, rfl, rfl, rfl, rfl, rfl, rfl⟩
  | cons op ops ih =>
    intro w hi ha hx hal
    obtain ⟨w1, e, hi1, hs⟩ := step_ok n w op hi ha hx hal.1
    have hx1 := hal.1.excl
    rw [run, e]
    obtain ⟨w2, e2, hi2, ha2, hx2, hs2⟩ := ih w1 hi1 (by rw [hs.1]; exact hal.1.acyc) (excl_same hs.symm hx1) (allowed_same hs.symm hal.2)
    refine ⟨w2, e2, hi2, ha2, hx2, ?_⟩
    have : Same (ops.foldl after w1) (ops.foldl after (after w op)) := fold_same hs
    exact ⟨hs2.1.trans this.1, hs2.2.1.trans this.2.1, hs2.2.2.1.trans this.2.2.1, hs2.2.2.2.1.trans this.2.2.2.1,
      hs2.2.2.2.2.1.trans this.2.2.2.2.1, hs2.2.2.2.2.2.trans this.2.2.2.2.2⟩

/-- Classes without super types, features and operations, before any call. -/
def fresh (kind : Nat → Kind) (name : Nat → String) (proxy : Nat → Option Nat) : W := { kind := kind, name := name, proxy := proxy }

theorem fresh_inv (kind : Nat → Kind) (name : Nat → String) (proxy : Nat → Option Nat) : Inv (fresh kind name proxy) := by
  refine ⟨?_, ?_, ?_, ?_⟩
  · intro a c; rfl
  · intro k all _; exact ⟨fun d l h => (by cases h), fun d l h => (by cases h)⟩
  · intro all _ c l h; cases h
  · refine ⟨?_, ?_, ?_, ?_, ?_, ?_⟩ <;> intros <;> contradiction

theorem fresh_excl (kind : Nat → Kind) (name : Nat → String) (proxy : Nat → Option Nat) : Excl (fresh kind name proxy) := by
  refine ⟨?_, ?_, ?_, ?_⟩ <;> simp [fresh]

theorem fresh_acyclic (kind : Nat → Kind) (name : Nat → String) (proxy : Nat → Option Nat) (n : Nat) (hn : 0 < n) :
    Hier.Acyclic (fresh kind name proxy).supers n := ⟨fun _ => 0, by simp [fresh], fun _ => hn⟩

end Verif.EClass
