import Verif.Proofs.CrossContainment
/-!
# C95: containment across resources

Full claim: an object is in the list or reference that its container says and in no other, also when containers have proxies for objects of
other resources: reading turns a proxy into its object and changes nothing else, the object has the owner as container then and stays in its
resource.

Proved: the container of an object holds it, for all programs; what holds an object is its container, for programs in which no two entries ever
stand for the same object; reading a list changes nothing that is shown, reading a single reference neither for these programs; objects
stay in their resources whatever contains them. The code violates the rest.
-/
namespace Verif.CrossContainment
open Verif.Spec.CrossContainment

/-- Whatever the program does: the container of an object has it in the list, or as value of the reference, that is told. -/
theorem C95_container_partial (tgt : Nat → Option Nat) (ops : List Op) (v a : Nat) (r : Ref) :
    (run tgt init ops).cont v = some (a, r) → Holds (run tgt init ops) a r v :=
  run_H ops v a r (fun f => f)

/-- As long as no two entries stand for the same object, an object is where its container says and nowhere else. -/
theorem C95_places_partial (tgt : Nat → Option Nat) (ht : Loaded tgt) (ops : List Op)
    (hd : ∀ k, k < ops.length → Distinct tgt (run tgt init (ops.take k))) (v a : Nat) (r : Ref) :
    Holds (run tgt init ops) a r v ↔ (run tgt init ops).cont v = some (a, r) :=
  ⟨run_J ht ops hd v a r, run_H ops v a r (fun f => f)⟩

/-- Reading does not change what lists and references show: lists for all programs, single references as long as no two entries stand for the
same object. -/
theorem C95_read_partial (tgt : Nat → Option Nat) (ht : Loaded tgt) (ops : List Op) (op : Op) :
    ((∃ a i, op = .get a i) ∨ (∃ a x, op = .indexOf a x) ∨ (∃ a, op = .toArray a) ∨
      (∃ a, op = .getOne a) ∧ (∀ k, k ≤ ops.length → Distinct tgt (run tgt init (ops.take k)))) →
    ∀ b, ((run tgt init (ops ++ [op])).kids b).map (standsFor tgt) = ((run tgt init ops).kids b).map (standsFor tgt) ∧
      ((run tgt init (ops ++ [op])).one b).map (standsFor tgt) = ((run tgt init ops).one b).map (standsFor tgt) := by
  intro h b
  rw [run_snoc]
  rcases h with ⟨a, i, rfl⟩ | ⟨a, x, rfl⟩ | ⟨a, rfl⟩ | ⟨⟨a, rfl⟩, hd⟩
  · exact ⟨shown_same (resolveAt_same _ a i) (resolveAt_shown ht _ a i) b, by
      show ((resolveAt tgt (run tgt init ops) a i).one b).map _ = _; rw [(resolveAt_same _ a i).one]⟩
  · exact ⟨shown_same (indexOf_same _ a x) (indexOf_shown ht _ a x) b, by
      show ((indexOf tgt (run tgt init ops) a x).1.one b).map _ = _; rw [(indexOf_same _ a x).one]⟩
  · exact ⟨shown_same (toArray_same _ a _) (toArray_shown ht _ a _) b, by
      show ((toArray tgt (run tgt init ops) a _).one b).map _ = _; rw [(toArray_same _ a _).one]⟩
  · have hg : Good tgt (run tgt init ops) :=
      ⟨run_H ops, run_J ht ops (fun k hk => hd k (by omega)), by have := hd ops.length (Nat.le_refl _); rwa [List.take_length] at this⟩
    have := getOne_good ht hg a
    exact ⟨by show ((getOne tgt (run tgt init ops) a).kids b).map _ = _; rw [this.1], this.2 b⟩

/-- An object is in the contents of a resource exactly if that is its resource, once and in no other one; what contains objects, or stops
containing them, does not change that. -/
theorem C95_resources_partial (tgt : Nat → Option Nat) (ops : List Op) :
    (∀ x r, x ∈ (run tgt init ops).roots r ↔ (run tgt init ops).res x = some r) ∧ (∀ r, ((run tgt init ops).roots r).Nodup) ∧
    ∀ op, (∀ r x, op ≠ .addRoot r x) → (∀ r x, op ≠ .removeRoot r x) →
      (run tgt init (ops ++ [op])).roots = (run tgt init ops).roots ∧ (run tgt init (ops ++ [op])).res = (run tgt init ops).res := by
  refine ⟨(run_R ops).1, (run_R ops).2, fun op h1 h2 => ?_⟩
  rw [run_snoc]
  exact ⟨(step_res _ op h1 h2).2, (step_res _ op h1 h2).1⟩

/-! ### A program that meets the hypotheses: 10 stands for 20 and 11 for 21 -/

/-- the proxies of the example -/
def exTgt : Nat → Option Nat := fun p => if p = 10 then some 20 else if p = 11 then some 21 else none

theorem exTgt_loaded : Loaded exTgt := by
  intro p t h
  unfold exTgt at *
  grind

theorem exDistinct : ∀ k, k < [Op.add 1 10, .setOne 2 (some 11), .get 1 0].length →
    Distinct exTgt (run exTgt init ([Op.add 1 10, .setOne 2 (some 11), .get 1 0].take k)) := by
  have holds0 : ∀ a r v, ¬Holds init a r v := by intro a r v; cases r <;> simp [Holds, init]
  have kids1 : ∀ a, (step exTgt init (.add 1 10)).kids a = if a = 1 then [10] else [] := by intro a; rfl
  have one1 : ∀ a, (step exTgt init (.add 1 10)).one a = none := by intro a; rfl
  have kids2 : ∀ a, (step exTgt (step exTgt init (.add 1 10)) (.setOne 2 (some 11))).kids a = if a = 1 then [10] else [] := by intro a; rfl
  have one2 : ∀ a, (step exTgt (step exTgt init (.add 1 10)) (.setOne 2 (some 11))).one a = if a = 2 then some 11 else none := by intro a; rfl
  intro k hk
  match k, hk with
  | 0, _ => exact ⟨fun a => by simp [run, init], fun a r v b q w hv => absurd hv (holds0 a r v)⟩
  | 1, _ =>
    refine ⟨fun a => ?_, ?_⟩
    · show (((step exTgt init (.add 1 10)).kids a).map _).Nodup
      rw [kids1]; split <;> simp
    · intro a r v b q w hv hw _
      cases r <;> cases q <;> simp only [Holds] at hv hw
      · change v ∈ (step exTgt init (.add 1 10)).kids a at hv
        change w ∈ (step exTgt init (.add 1 10)).kids b at hw
        rw [kids1] at hv hw
        grind
      · change (step exTgt init (.add 1 10)).one b = some w at hw
        rw [one1] at hw; cases hw
      · change (step exTgt init (.add 1 10)).one a = some v at hv
        rw [one1] at hv; cases hv
      · change (step exTgt init (.add 1 10)).one a = some v at hv
        rw [one1] at hv; cases hv
  | 2, _ =>
    have e10 : standsFor exTgt 10 = 20 := rfl
    have e11 : standsFor exTgt 11 = 21 := rfl
    refine ⟨fun a => ?_, ?_⟩
    · show (((step exTgt (step exTgt init (.add 1 10)) (.setOne 2 (some 11))).kids a).map _).Nodup
      rw [kids2]; split <;> simp
    · intro a r v b q w hv hw e
      cases r <;> cases q <;> simp only [Holds] at hv hw
      · change v ∈ (step exTgt (step exTgt init (.add 1 10)) (.setOne 2 (some 11))).kids a at hv
        change w ∈ (step exTgt (step exTgt init (.add 1 10)) (.setOne 2 (some 11))).kids b at hw
        rw [kids2] at hv hw
        grind
      · change v ∈ (step exTgt (step exTgt init (.add 1 10)) (.setOne 2 (some 11))).kids a at hv
        change (step exTgt (step exTgt init (.add 1 10)) (.setOne 2 (some 11))).one b = some w at hw
        rw [kids2] at hv
        rw [one2] at hw
        grind
      · change (step exTgt (step exTgt init (.add 1 10)) (.setOne 2 (some 11))).one a = some v at hv
        change w ∈ (step exTgt (step exTgt init (.add 1 10)) (.setOne 2 (some 11))).kids b at hw
        rw [one2] at hv
        rw [kids2] at hw
        grind
      · change (step exTgt (step exTgt init (.add 1 10)) (.setOne 2 (some 11))).one a = some v at hv
        change (step exTgt (step exTgt init (.add 1 10)) (.setOne 2 (some 11))).one b = some w at hw
        rw [one2] at hv hw
        grind

/-- after it the object 20 is in the list of 1 and has the container 1 -/
example : (run exTgt init [.add 1 10, .setOne 2 (some 11), .get 1 0]).cont 20 = some (1, .list) :=
  (C95_places_partial exTgt exTgt_loaded _ exDistinct 20 1 .list).mp
    (show 20 ∈ (run exTgt init [.add 1 10, .setOne 2 (some 11), .get 1 0]).kids 1 by decide)

/-- and the reference of 2 still shows 21 when it is read -/
example : (run exTgt init ([.add 1 10, .setOne 2 (some 11)] ++ [.getOne 2])).one 2 = some 21 ∧
    (run exTgt init ([.add 1 10, .setOne 2 (some 11)] ++ [.getOne 2])).cont 21 = some (2, .one) := by decide

/-! ### What the code violates -/

/-- An object in the list of `a`, and a proxy for it in the list of `b`: after reading, both lists have the object, its container is `a`. When it
is then removed from the list of `b`, the list of `a` still has it and it has no container. -/
theorem C95_both_violated (tgt : Nat → Option Nat) (a b p t : Nat) (hab : a ≠ b) (hp : tgt p = some t) (ht : tgt t = none) :
    let s := run tgt init [.add a t, .add b p, .get b 0]
    let s' := run tgt init [.add a t, .add b p, .get b 0, .remove b t]
    (t ∈ s.kids a ∧ t ∈ s.kids b ∧ s.cont t = some (a, .list)) ∧ t ∈ s'.kids a ∧ s'.cont t = none := by
  have hpt : t ≠ p := by rintro rfl; rw [hp] at ht; cases ht
  have hba : b ≠ a := fun e => hab e.symm
  have hpt' : p ≠ t := fun e => hpt e.symm
  have st : stand tgt t = t := by simp [stand, ht]
  have sp : stand tgt p = t := by simp [stand, hp]
  simp [run, step, add, indexOf, scan, enter, leave, init, setCont, resolveAt, remove, removeAt, upd, st, sp, hpt, hpt', hab, hba]

/-- An object in the list of `a`, and a proxy for it as single reference of `b`: reading the reference of `b` takes the object out of the list
of `a`. -/
theorem C95_taken_violated (tgt : Nat → Option Nat) (a b p t : Nat) (hp : tgt p = some t) (ht : tgt t = none) :
    (run tgt init [.add a t, .setOne b (some p)]).kids a = [t] ∧
    (run tgt init [.add a t, .setOne b (some p), .getOne b]).kids a = [] := by
  have hpt : t ≠ p := by rintro rfl; rw [hp] at ht; cases ht
  have hpt' : p ≠ t := fun e => hpt e.symm
  have st : stand tgt t = t := by simp [stand, ht]
  have sp : stand tgt p = t := by simp [stand, hp]
  simp [run, step, add, indexOf, scan, enter, leave, init, setCont, resolveAt, setOne, getOne, drop, upd, st, sp, hpt, hpt']

/-- A proxy for an object that is in the list is added: after reading, the list has the object twice. -/
theorem C95_twice_violated (tgt : Nat → Option Nat) (a p t : Nat) (hp : tgt p = some t) (ht : tgt t = none) :
    (run tgt init [.add a t, .add a p, .get a 1]).kids a = [t, t] := by
  have hpt : t ≠ p := by rintro rfl; rw [hp] at ht; cases ht
  have hpt' : p ≠ t := fun e => hpt e.symm
  have st : stand tgt t = t := by simp [stand, ht]
  have sp : stand tgt p = t := by simp [stand, hp]
  simp [run, step, add, indexOf, scan, enter, leave, init, setCont, resolveAt, upd, st, sp, hpt, hpt']

/-- `b` is in `a` and has a proxy for `a`: after reading the list of `b`, `a` is inside itself, and asking for its resource does not end, however
long one waits. -/
theorem C95_cycle_violated (tgt : Nat → Option Nat) (a b p : Nat) (hab : a ≠ b) (hpb : p ≠ b) (hp : tgt p = some a) (ha : tgt a = none)
    (hb : tgt b = none) :
    let s := run tgt init [.add a b, .add b p, .get b 0]
    Inside s a a ∧ ∀ n, eResource n s a = none := by
  have hpa : a ≠ p := by rintro rfl; rw [hp] at ha; cases ha
  have hpa' : p ≠ a := fun e => hpa e.symm
  have hba : b ≠ a := fun e => hab e.symm
  have hbp : b ≠ p := fun e => hpb e.symm
  have sa : stand tgt a = a := by simp [stand, ha]
  have sb : stand tgt b = b := by simp [stand, hb]
  have sp : stand tgt p = a := by simp [stand, hp]
  intro s
  have hca : s.cont a = some (b, .list) := by
    simp [s, run, step, add, indexOf, scan, enter, leave, init, setCont, resolveAt, upd, sa, sb, sp, hpa, hpa', hab, hba, hpb, hbp]
  have hcb : s.cont b = some (a, .list) := by
    simp [s, run, step, add, indexOf, scan, enter, leave, init, setCont, resolveAt, upd, sa, sb, sp, hpa, hpa', hab, hba, hpb, hbp]
  have hr : ∀ o, s.res o = none := by
    intro o
    have h1 := (step_res (tgt := tgt) init (.add a b) (by simp) (by simp)).1
    have h2 := (step_res (tgt := tgt) (step tgt init (.add a b)) (.add b p) (by simp) (by simp)).1
    have h3 := (step_res (tgt := tgt) (step tgt (step tgt init (.add a b)) (.add b p)) (.get b 0) (by simp) (by simp)).1
    show (step tgt (step tgt (step tgt init (.add a b)) (.add b p)) (.get b 0)).res o = none
    rw [h3, h2, h1]; rfl
  refine ⟨.up hca (.one hcb), ?_⟩
  have both : ∀ n, eResource n s a = none ∧ eResource n s b = none := by
    intro n
    induction n with
    | zero => exact ⟨rfl, rfl⟩
    | succ n ih => constructor <;> simp [eResource, hr, hca, hcb, hab, hba, ih]
  exact fun n => (both n).1

end Verif.CrossContainment
