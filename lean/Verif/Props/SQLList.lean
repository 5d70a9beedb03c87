import Verif.Proofs.SQLList

/-!
# C38: the SQL store keeps list order
-/

namespace Verif.SQLList

variable {V : Type} [DecidableEq V]

/-- the numbers computed fit, all along a history -/
def RoomAll (fl : Rat → Rat) (rows : List (Row V)) : List (Op V) → Prop
  | [] => True
  | op :: ops => Room fl rows op ∧ RoomAll fl (step fl rows op).1 ops

theorem run_spec (fl : Rat → Rat) (ops : List (Op V)) : ∀ rows : List (Row V), Good rows → ValidAll (contents rows) ops →
    RoomAll fl rows ops →
    contents (run fl rows ops).1 = (specRun (contents rows) ops).1 ∧ (run fl rows ops).2 = (specRun (contents rows) ops).2 := by
  induction ops with
  | nil => intro rows _ _ _; exact ⟨rfl, rfl⟩
  | cons op ops ih =>
    intro rows hg hv hr
    obtain ⟨g1, g2, g3⟩ := step_spec fl hg op hv.1 hr.1
    obtain ⟨i1, i2⟩ := ih _ g1 (by rw [g2]; exact hv.2) hr.2
    simp only [run, specRun]
    rw [← g2, ← g3]
    exact ⟨i1, by rw [i2]⟩

theorem roomAll_exact (ops : List (Op V)) : ∀ rows : List (Row V), Good rows → ValidAll (contents rows) ops →
    SmallBulks (contents rows) ops → RoomAll id rows ops := by
  induction ops with
  | nil => intros; trivial
  | cons op ops ih =>
    intro rows hg hv hb
    have hr := room_exact hg op hv.1 hb.1
    obtain ⟨g1, g2, -⟩ := step_spec id hg op hv.1 hr
    exact ⟨hr, ih _ g1 (by rw [g2]; exact hv.2) (by rw [g2]; exact hb.2)⟩

theorem good_nil : Good ([] : List (Row V)) := ⟨List.nodup_nil, fun _ => .nil, by simp⟩

/-- **C38** (partial): with exact numbers, every history of operations with valid indexes gives the
results and the order of the same history on sequences.
Missing: bulk insertions of several values before existing ones (`C38_middle_violated`,
`C38_head_violated`) and numbers with limited precision (`C38_precision_violated`,
`C38_rounded_partial`). -/
theorem C38_exact_partial (ops : List (Op V)) (hv : ValidAll (fun _ => []) ops) (hb : SmallBulks (fun _ => []) ops) :
    contents (run id [] ops).1 = (specRun (fun _ => []) ops).1 ∧ (run id [] ops).2 = (specRun (fun _ => []) ops).2 := by
  have hc : contents ([] : List (Row V)) = fun _ => [] := rfl
  rw [← hc] at hv hb ⊢
  exact run_spec id ops [] good_nil hv (roomAll_exact ops [] good_nil hv hb)

/-- **C38** (partial): the same with any rounding, as long as the numbers computed fit between
their neighbours. -/
theorem C38_rounded_partial (fl : Rat → Rat) (ops : List (Op V)) (hv : ValidAll (fun _ => []) ops) (hr : RoomAll fl [] ops) :
    contents (run fl [] ops).1 = (specRun (fun _ => []) ops).1 ∧ (run fl [] ops).2 = (specRun (fun _ => []) ops).2 :=
  run_spec fl ops [] good_nil hv hr

/-! ## Samples and counterexamples -/

/-- two objects; insertions at the head, in the middle and at the end, moves, removal, reads -/
def sample : List (Op Nat) :=
  [.add 0 0 10, .add 0 1 11, .add 1 0 20, .add 0 1 12, .add 0 0 13, .addAll 0 4 [14, 15], .move 0 0 3, .move 0 4 1, .remove 0 2,
    .set 0 0 16, .indexOf 0 15, .lastIndexOf 0 16, .size 1, .toArray 0]

example : ValidAll (fun _ => []) sample := by decide

example : SmallBulks (fun _ => []) sample := by simp [sample, SmallBulks, SmallBulk, specStep, put]

example : (run id [] sample).2.getLast? = some (.values [16, 14, 11, 13, 15]) := by decide +kernel

/-- **C38** is violated: two values inserted before the last one of two come out in front. -/
theorem C38_middle_violated :
    (run id [] [.add 0 0 1, .add 0 1 2, .add 0 2 3, .add 0 3 4, .addAll 0 3 [5, 6], .toArray 0]).2.getLast? =
      some (.values [1, 2, 5, 6, 3, 4]) ∧
    (specRun (fun _ => []) [.add 0 0 1, .add 0 1 2, .add 0 2 3, .add 0 3 4, .addAll 0 3 [5, 6], .toArray 0]).2.getLast? =
      some (.values [1, 2, 3, 5, 6, 4]) := by decide +kernel

/-- **C38** is violated: three values inserted at the head of a list whose head was inserted before. -/
theorem C38_head_violated :
    (run id [] [.add 0 0 1, .add 0 0 2, .addAll 0 0 [3, 4, 5], .toArray 0]).2.getLast? = some (.values [3, 4, 2, 5, 1]) ∧
    (specRun (fun _ => []) [.add 0 0 1, .add 0 0 2, .addAll 0 0 [3, 4, 5], .toArray 0]).2.getLast? =
      some (.values [3, 4, 5, 2, 1]) := by decide +kernel

/-- insertions of `n - 1`, …, `0` at index 1 -/
def at1 : Nat → List (Op Nat)
  | 0 => []
  | n + 1 => .add 0 1 n :: at1 n

/-- the first two numbers of a list -/
def firstTwo (rows : List (Row Nat)) (o : Nat) : List Rat := ((select rows o).map (·.idx)).take 2

/-- **C38** is violated: after 53 insertions at the same place, the numbers of two values are the same, so
that their order is not defined. -/
theorem C38_precision_violated :
    firstTwo (run toDouble [] (.add 0 0 100 :: .add 0 1 101 :: at1 52)).1 0 = [1, 1 + 1 / 4503599627370496] ∧
    firstTwo (run toDouble [] (.add 0 0 100 :: .add 0 1 101 :: at1 53)).1 0 = [1, 1] := by decide +kernel

end Verif.SQLList
