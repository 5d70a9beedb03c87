import Verif.Model.Resource
import Verif.Proofs.Notify
/-
Property C28: the loaded flag of a resource.
-/
namespace Verif.Spec.Loaded
open Verif.EList Verif.Notify

/-- A resource seen from outside: its contents and whether it is loaded. -/
structure R where
  contents : List Nat
  loaded : Bool

/-- Effect of a modification of the contents `c` to `c'` on the flag: loaded when there is something in it; a resource which becomes empty
is not loaded, nor is one which is cleared; otherwise no change. -/
def flagAfter (clear : Bool) (c c' : List Nat) (b : Bool) : Bool :=
  if c' ≠ [] then true else if c ≠ [] ∨ clear then false else b

def isClear : NOp Nat → Bool
  | .op .clear => true
  | _ => false

/-- The contents of a list after a call (property C02/C06). -/
def after (c : List Nat) (op : NOp Nat) : List Nat := (nstep { cfg := { unique := true, iter := .snapshot } } c op).1.data

def modify (r : R) (op : NOp Nat) : R := ⟨after r.contents op, flagAfter (isClear op) r.contents (after r.contents op) r.loaded⟩

/-- Loading does nothing when loaded or when there is nothing to decode; else the resource is loaded and then modified by the decoder. -/
def load (r : R) : Option (List (NOp Nat)) → R
  | none => r
  | some ops => if r.loaded then r else ops.foldl modify { r with loaded := true }

def step (r : R) : Resource.Call → R
  | .getContents => r
  | .list _ op => modify r op
  | .load o => load r o
  | .unload => ⟨[], false⟩

/-- The changes (old, new) lead from a value to another one, none of them being void. -/
def Changes : Bool → List (Bool × Bool) → Bool → Prop
  | a, [], b => a = b
  | a, n :: ns, b => n.1 = a ∧ n.2 ≠ a ∧ Changes n.2 ns b

/-- The calls of a decoder leave the resource loaded all the time. -/
def KeepsLoaded : R → List (NOp Nat) → Prop
  | _, [] => True
  | r, op :: ops => (modify r op).loaded = true ∧ KeepsLoaded (modify r op) ops

end Verif.Spec.Loaded

namespace Verif.Props
open Verif.EList Verif.Notify Verif.Resource Verif.Spec

theorem onCallbacks_append (f : Flag) (n : Nat) (a b : List (CB Nat)) :
    onCallbacks f n (a ++ b) = onCallbacks (onCallbacks f n a) n b := by
  induction a generalizing f with
  | nil => rfl
  | cons x a ih => simp [onCallbacks, ih]

theorem onCallbacks_inserts (n i : Nat) (l : List Nat) (f : Flag) :
    onCallbacks f n (didInserts i l) = if i + 1 ≤ n ∧ n ≤ i + l.length then setLoaded f else f := by
  induction l generalizing i f with
  | nil => simp [didInserts, onCallbacks]; omega
  | cons x l ih =>
    simp only [didInserts, onCallbacks, onCallback, ih, List.length_cons]
    by_cases h : (i : Int) = n - 1
    · rw [if_pos h, if_neg (by omega), if_pos (by omega)]
    · rw [if_neg h]
      by_cases h2 : i + 1 + 1 ≤ n ∧ n ≤ i + 1 + l.length
      · rw [if_pos h2, if_pos (by omega)]
      · rw [if_neg h2, if_neg (by omega)]

theorem setUnloaded_idem (f : Flag) : setUnloaded (setUnloaded f) = setUnloaded f := by
  unfold setUnloaded; split <;> simp_all

theorem onCallbacks_removes (n i : Nat) (l : List Nat) (f : Flag) :
    onCallbacks f n (didRemovesDesc i l) = if n = 0 ∧ l ≠ [] then setUnloaded f else f := by
  induction l generalizing i f with
  | nil => simp [didRemovesDesc, onCallbacks]
  | cons x l ih =>
    simp only [didRemovesDesc, onCallbacks_append, ih, onCallbacks, onCallback]
    by_cases h : n = 0 <;> by_cases h2 : l = [] <;> simp [h, h2, setUnloaded_idem]

/-- The flag set to a value, with a notification when it changes. -/
def flagTo (f : Flag) (b : Bool) : Flag := if b = f.1 then f else (b, f.2 ++ [(f.1, b)])

theorem setLoaded_eq (f : Flag) : setLoaded f = flagTo f true := by
  unfold setLoaded flagTo; cases h : f.1 <;> simp

theorem setUnloaded_eq (f : Flag) : setUnloaded f = flagTo f false := by
  unfold setUnloaded flagTo; cases h : f.1 <;> simp

/-- What is to be shown of a call. -/
def FlagOk (data : List Nat) (f : Flag) (r : EList.Res Nat) : Prop :=
  onCallbacks f r.data.length r.trace = flagTo f (Loaded.flagAfter false data r.data f.1)

theorem flagTo_self (f : Flag) : flagTo f f.1 = f := by simp [flagTo]

theorem flagOk_same (data : List Nat) (f : Flag) (r : EList.Res Nat) (hinv : data ≠ [] → f.1 = true) (hlen : r.data.length = data.length)
    (ht : onCallbacks f r.data.length r.trace = f) : FlagOk data f r := by
  unfold FlagOk Loaded.flagAfter
  rw [ht]
  by_cases h : data = []
  · have : r.data = [] := by rw [h] at hlen; simpa using hlen
    simp [h, this, flagTo_self]
  · have : r.data ≠ [] := by intro h'; rw [h'] at hlen; cases data <;> simp_all
    simp [this, flagTo, hinv h]

theorem flagOk_noop (data : List Nat) (f : Flag) (r : Ret Nat) (hinv : data ≠ [] → f.1 = true) : FlagOk data f (noop data r) :=
  flagOk_same data f _ hinv rfl rfl

theorem andEmit_fst (r : EList.Res Nat) (ns : Payload Nat → List (Notif Nat)) : (Notify.Res.andEmit r ns).1 = r := by
  unfold Notify.Res.andEmit; split <;> rfl

theorem nDoInsertAll_fst (c : NCfg) (data l : List Nat) (i : Int) (h : ¬ l.length = 0) : (nDoInsertAll c data i l).1 = doInsertAll data i l := by
  unfold nDoInsertAll
  split
  · rename_i h'; simp at h'; simp [h'] at h
  · exact andEmit_fst ..

theorem flagOk_returning (data : List Nat) (f : Flag) (x : EList.Res Nat × List (Notif Nat)) (r : Ret Nat) (h : FlagOk data f x.1) :
    FlagOk data f (returning x r).1 := by
  unfold returning EList.Res.returning FlagOk at *
  split <;> exact h

theorem flagOk_doAdd (data : List Nat) (f : Flag) (e : Nat) : FlagOk data f (doAdd data e) := by
  simp [FlagOk, doAdd, onCallbacks, onCallback, Loaded.flagAfter, setLoaded_eq]

theorem flagOk_doInsert (data : List Nat) (f : Flag) (i : Int) (e : Nat) (hinv : data ≠ [] → f.1 = true) (h : Seq.validGap data i) :
    FlagOk data f (doInsert data i e) := by
  rw [doInsert_eq data i e h]
  have hl : (data.insertIdx i.toNat e).length = data.length + 1 := by
    have := h.1; have := h.2
    rw [List.length_insertIdx_of_le_length (by omega)]
  have hne : data.insertIdx i.toNat e ≠ [] := by intro h'; rw [h'] at hl; simp at hl
  simp only [FlagOk, onCallbacks, onCallback, Loaded.flagAfter, hl, ne_eq, hne, not_false_eq_true, if_true]
  split
  · exact setLoaded_eq f
  · rename_i hlt
    have h2 := h.1; have h3 := h.2
    have : data ≠ [] := by intro h'; subst h'; simp at hlt h3; omega
    simp [flagTo, hinv this]

theorem flagOk_doInsertAll (data : List Nat) (f : Flag) (i : Int) (l : List Nat) (hinv : data ≠ [] → f.1 = true) (h : Seq.validGap data i)
    (hl : l ≠ []) : FlagOk data f (doInsertAll data i l) := by
  rw [doInsertAll_eq data i l h]
  have h1 := h.1; have h2 := h.2
  have hlen : (Seq.insertAllAt data i.toNat l).length = data.length + l.length := by
    simp only [Seq.insertAllAt, List.length_append, List.length_take, List.length_drop]; omega
  have hpos : 0 < l.length := List.length_pos_iff.2 hl
  have hne : Seq.insertAllAt data i.toNat l ≠ [] := by intro h'; rw [h'] at hlen; simp at hlen; omega
  simp only [FlagOk, onCallbacks_inserts, Loaded.flagAfter, hlen, ne_eq, hne, not_false_eq_true, if_true]
  split
  · exact setLoaded_eq f
  · rename_i hlt
    have : data ≠ [] := by intro h'; subst h'; simp at hlt h2; omega
    simp [flagTo, hinv this]

theorem goCopy_length (data src d : List Nat) (i : Int) (h : goCopy data i src = some d) : d.length = data.length := by
  unfold goCopy at h
  split at h
  · simp only [Option.some.injEq] at h
    subst h
    simp only [List.length_append, List.length_take, List.length_drop]
    omega
  · simp at h

theorem goAssign_length (data d : List Nat) (i : Int) (e : Nat) (h : goAssign data i e = some d) : d.length = data.length := by
  unfold goAssign at h
  split at h
  · simp only [Option.some.injEq] at h
    subst h; simp
  · simp at h

theorem doMove_length (data spare : List Nat) (o n : Int) : (doMove data spare o n).data.length = data.length := by
  unfold doMove
  split
  · rfl
  · split
    · simp only
      split
      · rfl
      · rename_i d1 h
        have hl : d1.length = data.length := by
          split at h <;> split at h
          · simp at h
          · exact goCopy_length _ _ _ _ h
          · simp at h
          · exact goCopy_length _ _ _ _ h
        split
        · exact hl
        · rename_i d2 h2
          rw [← hl]; exact goAssign_length _ _ _ _ h2
    · rfl

theorem doMove_trace_inert (data spare : List Nat) (o n : Int) (f : Flag) (m : Nat) : onCallbacks f m (doMove data spare o n).trace = f := by
  unfold doMove
  split
  · rfl
  · split
    · simp only
      split
      · rfl
      · split <;> rfl
    · rfl

theorem flagOk_doMove (data spare : List Nat) (f : Flag) (o n : Int) (hinv : data ≠ [] → f.1 = true) :
    FlagOk data f (doMove data spare o n) :=
  flagOk_same data f _ hinv (doMove_length data spare o n) (doMove_trace_inert ..)

theorem flagOk_doSet (data : List Nat) (f : Flag) (i : Int) (e : Nat) (hinv : data ≠ [] → f.1 = true) : FlagOk data f (doSet data i e) := by
  apply flagOk_same data f _ hinv
  · unfold doSet goAssign; split
    · rfl
    · split
      · rfl
      · rename_i h; split at h <;> simp at h; subst h; simp
  · unfold doSet; split
    · rfl
    · split <;> rfl

theorem flagOk_doRemove (data : List Nat) (f : Flag) (i : Int) (hinv : data ≠ [] → f.1 = true) (h0 : 0 ≤ i) (h1 : i < data.length) :
    FlagOk data f (doRemove data i) := by
  have hlt : i.toNat < data.length := by omega
  rw [doRemove_eq data i data[i.toNat] h0 (List.getElem?_eq_getElem hlt)]
  have hl : (data.eraseIdx i.toNat).length = data.length - 1 := List.length_eraseIdx_of_lt hlt
  have hd : data ≠ [] := by intro h; subst h; simp at hlt
  simp only [FlagOk, onCallbacks, onCallback, Loaded.flagAfter]
  by_cases hz : data.eraseIdx i.toNat = []
  · simp [hz, hd, setUnloaded_eq]
  · have : ¬ (data.eraseIdx i.toNat).length = 0 := by simpa using hz
    simp only [this, if_false, ne_eq, hz, not_false_eq_true, if_true]
    simp [flagTo, hinv hd]

theorem flagOk_doRemoveRange (data : List Nat) (f : Flag) (a b : Int) (hinv : data ≠ [] → f.1 = true) (h0 : 0 ≤ a) (h1 : a ≤ b)
    (h2 : b ≤ data.length) : FlagOk data f (doRemoveRange data a b).1 := by
  rw [doRemoveRange_eq data a b h0 h1 h2]
  simp only [FlagOk, onCallbacks_append, onCallbacks_removes, onCallbacks, onCallback, Loaded.flagAfter]
  have hl : (data.take a.toNat ++ data.drop b.toNat).length = data.length - (b.toNat - a.toNat) := by
    simp only [List.length_append, List.length_take, List.length_drop]; omega
  have hr : ((data.take b.toNat).drop a.toNat).length = b.toNat - a.toNat := by
    simp only [List.length_take, List.length_drop]; omega
  by_cases hz : data.take a.toNat ++ data.drop b.toNat = []
  · rw [hz] at hl
    simp only [List.length_nil] at hl
    by_cases hd : data = []
    · have : (data.take b.toNat).drop a.toNat = [] := by simp [hd]
      simp [hz, hd, flagTo_self]
    · have hne : (data.take b.toNat).drop a.toNat ≠ [] := by
        intro h; rw [h] at hr
        have : 0 < data.length := List.length_pos_iff.2 hd
        simp at hr; omega
      simp only [hz, List.length_nil, true_and, ne_eq, hne, not_false_eq_true, if_true, not_true_eq_false, if_false, hd]
      simpa using setUnloaded_eq f
  · have : ¬ (data.take a.toNat ++ data.drop b.toNat).length = 0 := fun h => hz (List.length_eq_zero_iff.1 h)
    have hd : data ≠ [] := by intro h; subst h; simp at hz
    rw [if_neg (fun h => this h.1), if_pos hz]
    simp [flagTo, hinv hd]

theorem onRemovals_append (f : Flag) (n : Nat) (a b : List (CB Nat)) (k : Nat)
    (hk : k = a.countP (fun | .didRemove _ _ => true | _ => false)) :
    onRemovals f n (a ++ b) = onRemovals (onRemovals f n a) (n - k) b := by
  induction a generalizing f n k with
  | nil => simp at hk; simp [onRemovals, hk]
  | cons x a ih =>
    cases x with
    | didRemove i e =>
      simp only [List.countP_cons, if_true] at hk
      simp only [List.cons_append, onRemovals]
      rw [ih _ (n - 1) _ rfl]
      congr 1; omega
    | _ =>
      simp only [List.countP_cons, Bool.false_eq_true, if_false, Nat.add_zero] at hk
      simp only [List.cons_append, onRemovals]
      exact ih _ n k hk

/-- Removal of the elements of a collection, one by one. -/
theorem removeDesc_flag (c l pre : List Nat) (f : Flag) :
    let r := removeDesc (pre ++ l) ((matching c pre.length l).map (·.1))
    onRemovals f (pre ++ l).length r.trace = (if r.data = [] ∧ l ≠ [] then setUnloaded f else f) ∧
    r.trace.countP (fun | .didRemove _ _ => true | _ => false) + r.data.length = (pre ++ l).length := by
  induction l generalizing pre with
  | nil => simp [matching, removeDesc, onRemovals]
  | cons x xs ih =>
    have h := ih (pre ++ [x])
    have hm := removeDesc_matching c xs (pre ++ [x])
    simp only [List.length_append, List.length_cons, List.length_nil, Nat.zero_add] at h hm
    have e2 : pre ++ [x] ++ xs = pre ++ x :: xs := by simp
    rw [e2] at h hm
    obtain ⟨h1, h2⟩ := hm
    obtain ⟨h3, h4⟩ := h
    have hne : (removeDesc (pre ++ x :: xs) ((matching c (pre.length + 1) xs).map (·.1))).data ≠ [] := by rw [h1]; simp
    have h3' : onRemovals f (pre ++ x :: xs).length
        (removeDesc (pre ++ x :: xs) ((matching c (pre.length + 1) xs).map (·.1))).trace = f := by
      rw [if_neg (fun h => hne h.1)] at h3
      rw [← h3]; congr 1; simp; omega
    simp only [matching]
    by_cases hc : x ∈ c
    · simp only [hc, if_true, List.map_cons, removeDesc]
      rw [h1, doRemove_eq _ _ x (by omega) (by simp)]
      simp only
      rw [onRemovals_append _ _ _ _ _ rfl, h3']
      simp only [onRemovals, onCallback]
      have hsz : (pre ++ x :: xs).length - List.countP (fun | .didRemove _ _ => true | _ => false)
          (removeDesc (pre ++ x :: xs) ((matching c (pre.length + 1) xs).map (·.1))).trace - 1 = 
          ((pre ++ [x] ++ xs.filter (· ∉ c)).eraseIdx (pre.length)).length := by
        rw [h1] at h4
        rw [List.length_eraseIdx_of_lt (by simp)]
        simp only [List.length_append, List.length_cons, List.length_nil] at h4 ⊢
        omega
      constructor
      · simp only [Int.toNat_natCast]
        rw [hsz]
        simp only [List.length_eq_zero_iff]
        simp
      · rw [h1] at h4
        simp only [List.countP_append, List.countP_cons, List.countP_nil, Int.toNat_natCast]
        rw [List.length_eraseIdx_of_lt (by simp)]
        simp only [List.length_append, List.length_cons, List.length_nil] at h4 ⊢
        simp only [if_true, Bool.false_eq_true, if_false]; omega
    · simp only [hc, if_false]
      refine ⟨?_, ?_⟩
      · rw [h3', if_neg (fun h => hne h.1)]
      · rw [h4]; simp; omega

theorem removed_flag (data d : List Nat) (f : Flag) (h : data = [] → d = []) (hinv : data ≠ [] → f.1 = true) :
    (if d = [] ∧ data ≠ [] then setUnloaded f else f) = flagTo f (Loaded.flagAfter false data d f.1) := by
  unfold Loaded.flagAfter
  by_cases hd : d = [] <;> by_cases hdata : data = []
  · simp [hd, hdata, flagTo_self]
  · simp [hd, hdata, setUnloaded_eq]
  · exact absurd (h hdata) hd
  · simp [hd, flagTo, hinv hdata]

/-- A call on the contents sets the flag as specified and delivers one notification when it changes. -/
theorem listCall_spec (data : List Nat) (f : Flag) (op : NOp Nat) (hinv : data ≠ [] → f.1 = true) :
    listCall data f op = (Loaded.after data op, flagTo f (Loaded.flagAfter (Loaded.isClear op) data (Loaded.after data op) f.1)) := by
  have key : (∀ l, op ≠ .op (.removeAll l)) → op ≠ .op .clear → FlagOk data f (nstep contentsCfg data op).1 := by
    intro h1 h2
    have hu : contentsCfg.cfg.unique = true := rfl
    cases op with
    | op o =>
      cases o with
      | removeAll l => exact absurd rfl (h1 l)
      | clear => exact absurd rfl h2
      | add e =>
        simp only [nstep]; split
        · exact flagOk_noop _ _ _ hinv
        · exact flagOk_returning _ _ _ _ (by rw [nDoAdd, andEmit_fst]; exact flagOk_doAdd ..)
      | addAll l =>
        simp only [nstep, hu, if_true]
        by_cases hne : (getNonDuplicates contentsCfg.cfg.iter data l).length = 0
        · rw [if_pos hne]; exact flagOk_noop _ _ _ hinv
        · rw [if_neg hne]
          apply flagOk_returning
          rw [nDoAddAll, nDoInsertAll_fst _ _ _ _ hne]
          exact flagOk_doInsertAll _ _ _ _ hinv ⟨by omega, by omega⟩ (by intro h; simp [h] at hne)
      | insert i e =>
        simp only [nstep]; split
        · exact flagOk_noop _ _ _ hinv
        · rename_i hi
          split
          · exact flagOk_noop _ _ _ hinv
          · exact flagOk_returning _ _ _ _ (by
              rw [nDoInsert, andEmit_fst]
              exact flagOk_doInsert _ _ _ _ hinv ⟨by omega, by omega⟩)
      | insertAll i l =>
        simp only [nstep, hu, if_true]
        by_cases hi : i < 0 ∨ i > (data.length : Int)
        · rw [if_pos hi]; exact flagOk_noop _ _ _ hinv
        · rw [if_neg hi]
          by_cases hne : (getNonDuplicates contentsCfg.cfg.iter data l).length = 0
          · rw [if_pos hne]; exact flagOk_noop _ _ _ hinv
          · rw [if_neg hne]
            apply flagOk_returning
            rw [nDoInsertAll_fst _ _ _ _ hne]
            exact flagOk_doInsertAll _ _ _ _ hinv ⟨by omega, by omega⟩ (by intro h; simp [h] at hne)
      | move sp a b =>
        simp only [nstep]; split
        · exact flagOk_noop _ _ _ hinv
        · rw [nDoMove, andEmit_fst]; exact flagOk_doMove _ _ _ _ _ hinv
      | moveObject sp a b =>
        simp only [nstep]; split
        · exact flagOk_noop _ _ _ hinv
        · exact flagOk_returning _ _ _ _ (by rw [nDoMove, andEmit_fst]; exact flagOk_doMove _ _ _ _ _ hinv)
      | removeAt i =>
        simp only [nstep]; split
        · exact flagOk_noop _ _ _ hinv
        · rw [nDoRemove, andEmit_fst]; exact flagOk_doRemove _ _ _ hinv (by omega) (by omega)
      | remove e =>
        simp only [nstep]; split
        · exact flagOk_noop _ _ _ hinv
        · rename_i hi
          have := indexOf_eq e data
          exact flagOk_returning _ _ _ _ (by
            rw [nDoRemove, andEmit_fst]
            exact flagOk_doRemove _ _ _ hinv (by grind) (by grind))
      | removeRange a b =>
        simp only [nstep]; split
        · exact flagOk_noop _ _ _ hinv
        · split
          · exact flagOk_noop _ _ _ hinv
          · split
            · exact flagOk_noop _ _ _ hinv
            · rw [nDoRemoveRange]
              simp only [andEmit_fst]
              exact flagOk_doRemoveRange _ _ _ _ hinv (by omega) (by omega) (by omega)
      | set i e =>
        simp only [nstep]; split
        · exact flagOk_noop _ _ _ hinv
        · split
          · exact flagOk_noop _ _ _ hinv
          · rw [nDoSet, andEmit_fst]; exact flagOk_doSet _ _ _ _ hinv
    | addWN e => simp only [nstep, andEmit_fst]; exact flagOk_doAdd ..
    | removeWN e =>
      simp only [nstep]; split
      · exact flagOk_noop _ _ _ hinv
      · rw [andEmit_fst]
        have := indexOf_eq e data
        exact flagOk_doRemove _ _ _ hinv (by grind) (by grind)
    | setWN i e => simp only [nstep, andEmit_fst]; exact flagOk_doSet _ _ _ _ hinv
  by_cases hra : ∃ l, op = .op (.removeAll l)
  · obtain ⟨l, rfl⟩ := hra
    have h := removeDesc_flag l data [] f
    simp only [List.nil_append, List.length_nil] at h
    have hm := removeDesc_matching l data []
    simp only [List.nil_append, List.length_nil] at hm
    have hdat : (nstep contentsCfg data (.op (.removeAll l))).1.data = (removeDesc data ((matching l 0 data).map (·.1))).data ∧
        (nstep contentsCfg data (.op (.removeAll l))).1.trace = (removeDesc data ((matching l 0 data).map (·.1))).trace := by
      simp only [nstep, nRemoveAll]; split <;> exact ⟨rfl, rfl⟩
    simp only [listCall, Loaded.after, Loaded.isClear]
    change ((nstep contentsCfg data (.op (.removeAll l))).1.data, _) = ((nstep contentsCfg data (.op (.removeAll l))).1.data,
      flagTo f (Loaded.flagAfter false data (nstep contentsCfg data (.op (.removeAll l))).1.data f.1))
    rw [hdat.1, hdat.2, h.1]
    congr 1
    exact removed_flag data _ f (by intro h; subst h; rw [hm.1]; rfl) hinv
  · by_cases hcl : op = .op .clear
    · subst hcl
      simp only [listCall, Loaded.after, Loaded.isClear, nstep, nDoClear]
      have : ∀ (x : EList.Res Nat × List (Notif Nat)), x.1 = doClear data →
          (x.1.data, onCallbacks f x.1.data.length x.1.trace) = (x.1.data, flagTo f (Loaded.flagAfter true data x.1.data f.1)) := by
        intro x hx
        rw [hx]
        simp [doClear, onCallbacks, onCallback, Loaded.flagAfter, setUnloaded_eq]
      split <;> exact this _ rfl
    · have hk := key (fun l h => hra ⟨l, h⟩) hcl
      have hclear : Loaded.isClear op = false := by
        cases op with
        | op o => cases o <;> first | rfl | exact absurd rfl hcl
        | _ => rfl
      rw [hclear]
      have hcall : listCall data f op = ((nstep contentsCfg data op).1.data,
          onCallbacks f (nstep contentsCfg data op).1.data.length (nstep contentsCfg data op).1.trace) := by
        cases op with
        | op o => cases o <;> first | rfl | exact absurd ⟨_, rfl⟩ hra
        | _ => rfl
      rw [hcall, hk]
      rfl

/-- The program works with the list `GetContents()` answers, not with one it obtained before `Unload`. -/
def usesCurrent (s : St) : Call → Prop
  | .list h _ => s.current = some h
  | _ => True

def AlwaysCurrent : St → List Call → Prop
  | _, [] => True
  | s, c :: cs => usesCurrent s c ∧ AlwaysCurrent (Resource.step s c) cs

/-- What is seen from outside. -/
def view (s : St) : Loaded.R := ⟨contents s, s.loaded⟩

theorem getContents_view (s : St) : view (getContents s).1 = view s ∧ (getContents s).1.current = some (getContents s).2 ∧
    (getContents s).1.notes = s.notes ∧ (getContents s).1.decodes = s.decodes := by
  unfold getContents
  split
  · rename_i h hh; exact ⟨rfl, hh, rfl, rfl⟩
  · rename_i hn; simp [view, contents, hn]

theorem onList_view (s : St) (h : Nat) (op : NOp Nat) (hc : s.current = some h) (hinv : contents s ≠ [] → s.loaded = true) :
    view (onList s h op) = Loaded.modify (view s) op ∧
    (onList s h op).notes = (flagTo (s.loaded, s.notes) (onList s h op).loaded).2 := by
  have hcon : contents s = s.lists h := by simp [contents, hc]
  have := listCall_spec (s.lists h) (s.loaded, s.notes) op (by rw [← hcon]; exact hinv)
  have hl : (onList s h op).loaded = Loaded.flagAfter (Loaded.isClear op) (s.lists h) (Loaded.after (s.lists h) op) s.loaded := by
    simp only [onList, this, flagTo]; split
    · rename_i hx; exact hx.symm
    · rfl
  refine ⟨?_, ?_⟩
  · have hcon' : contents (onList s h op) = Loaded.after (s.lists h) op := by
      simp [contents, onList, hc, this]
    simp only [view, Loaded.modify, hcon', hl, hcon]
  · rw [hl]
    simp only [onList, this]

theorem modify_inv (r : Loaded.R) (op : NOp Nat) : (Loaded.modify r op).contents ≠ [] → (Loaded.modify r op).loaded = true := by
  intro h
  simp only [Loaded.modify] at h ⊢
  simp [Loaded.flagAfter, h]

theorem decode_view (ops : List (NOp Nat)) (s : St) (hinv : contents s ≠ [] → s.loaded = true) :
    view (decode s ops) = ops.foldl Loaded.modify (view s) ∧
    (contents (decode s ops) ≠ [] → (decode s ops).loaded = true) ∧
    (Loaded.KeepsLoaded (view s) ops → s.loaded = true → (decode s ops).notes = s.notes ∧ (decode s ops).loaded = true) := by
  induction ops generalizing s with
  | nil => exact ⟨rfl, hinv, fun _ h => ⟨rfl, h⟩⟩
  | cons op ops ih =>
    obtain ⟨h1, h2, h3, _⟩ := getContents_view s
    have hv1 : contents (getContents s).1 = contents s := congrArg Loaded.R.contents h1
    have hv2 : (getContents s).1.loaded = s.loaded := congrArg Loaded.R.loaded h1
    obtain ⟨h4, h5⟩ := onList_view (getContents s).1 (getContents s).2 op h2 (by rw [hv1, hv2]; exact hinv)
    have hinv' : contents (onList (getContents s).1 (getContents s).2 op) ≠ [] →
        (onList (getContents s).1 (getContents s).2 op).loaded = true := by
      have := modify_inv (view (getContents s).1) op
      rw [← h4] at this; exact this
    obtain ⟨i1, i2, i3⟩ := ih _ hinv'
    refine ⟨?_, i2, ?_⟩
    · rw [List.foldl_cons, ← h1, ← h4]; exact i1
    · intro hk hl
      rw [h1] at h4
      have hl' : (onList (getContents s).1 (getContents s).2 op).loaded = true := by
        rw [← hk.1, ← h4]; rfl
      obtain ⟨j1, j2⟩ := i3 (by rw [h4]; exact hk.2) hl'
      refine ⟨?_, j2⟩
      change (decode (onList (getContents s).1 (getContents s).2 op) ops).notes = _
      rw [j1, h5, hl', hv2, hl, h3]
      rfl

theorem step_view (s : St) (c : Call) (hc : usesCurrent s c) (hinv : contents s ≠ [] → s.loaded = true) :
    view (Resource.step s c) = Loaded.step (view s) c ∧
    (contents (Resource.step s c) ≠ [] → (Resource.step s c).loaded = true) := by
  cases c with
  | getContents =>
    have h1 := (getContents_view s).1
    refine ⟨h1, ?_⟩
    have hv1 : contents (getContents s).1 = contents s := congrArg Loaded.R.contents h1
    have hv2 : (getContents s).1.loaded = s.loaded := congrArg Loaded.R.loaded h1
    change contents (getContents s).1 ≠ [] → (getContents s).1.loaded = true
    rw [hv1, hv2]; exact hinv
  | list h op =>
    have h4 := (onList_view s h op hc hinv).1
    refine ⟨h4, ?_⟩
    have := modify_inv (view s) op
    rw [← h4] at this; exact this
  | load o =>
    simp only [Resource.step, load, Loaded.step]
    cases o with
    | none => split <;> exact ⟨rfl, hinv⟩
    | some ops =>
      cases hl : s.loaded with
      | true => simp only [Bool.true_eq_false, if_false, Loaded.load, view, hl, if_true]; exact ⟨trivial, fun h => by simpa [hl] using hinv h⟩
      | false =>
        simp only [if_true, Loaded.load, view, hl, Bool.false_eq_true, if_false]
        obtain ⟨h1, h2, _⟩ := decode_view ops { s with loaded := true, decodes := s.decodes + 1 } (fun _ => rfl)
        exact ⟨h1, h2⟩
  | unload =>
    simp only [Resource.step, unload, Loaded.step]
    cases hl : s.loaded with
    | true => simp [view, contents]
    | false =>
      have : contents s = [] := by
        rcases Classical.em (contents s = []) with h | h
        · exact h
        · have := hinv h; rw [hl] at this; cases this
      simp [view, hl, this]

theorem run_view (cs : List Call) (s : St) (hc : AlwaysCurrent s cs) (hinv : contents s ≠ [] → s.loaded = true) :
    view (Resource.run s cs) = cs.foldl Loaded.step (view s) ∧ (contents (Resource.run s cs) ≠ [] → (Resource.run s cs).loaded = true) := by
  induction cs generalizing s with
  | nil => exact ⟨rfl, hinv⟩
  | cons c cs ih =>
    obtain ⟨h1, h2⟩ := step_view s c hc.1 hinv
    obtain ⟨h3, h4⟩ := ih _ hc.2 h2
    exact ⟨by rw [List.foldl_cons, ← h1]; exact h3, h4⟩

/-- **C28** (partial: programs which go on using a contents list obtained before `Unload` are excluded). For every history of
loads, unloads and modifications of the contents, the contents and the loaded flag are those of the specification. -/
theorem C28_loaded_partial (cs : List Call) (hc : AlwaysCurrent {} cs) :
    contents (Resource.run {} cs) = (cs.foldl Loaded.step ⟨[], false⟩).contents ∧
    (Resource.run {} cs).loaded = (cs.foldl Loaded.step ⟨[], false⟩).loaded := by
  have := (run_view cs {} hc (by simp [contents])).1
  exact ⟨congrArg Loaded.R.contents this, congrArg Loaded.R.loaded this⟩

/-- **C28**: a resource with something in it is loaded, so loading it does nothing at all (no decoder is run); unloading leaves it
empty and not loaded. -/
theorem C28_nonempty_partial (cs : List Call) (hc : AlwaysCurrent {} cs) (o : Option (List (NOp Nat))) :
    (contents (Resource.run {} cs) ≠ [] → (Resource.run {} cs).loaded = true ∧ Resource.step (Resource.run {} cs) (.load o) = Resource.run {} cs) ∧
    contents (Resource.step (Resource.run {} cs) .unload) = [] ∧ (Resource.step (Resource.run {} cs) .unload).loaded = false := by
  obtain ⟨_, h⟩ := run_view cs {} hc (by simp [contents])
  refine ⟨fun hne => ⟨h hne, ?_⟩, ?_⟩
  · simp [Resource.step, Resource.load, h hne]
  · have := (step_view (Resource.run {} cs) .unload trivial h).1
    exact ⟨congrArg Loaded.R.contents this, congrArg Loaded.R.loaded this⟩

/-- The decoders of a history keep the resource loaded while decoding (e.g. they only add). -/
def DecodersKeep : Loaded.R → List Call → Prop
  | _, [] => True
  | r, c :: cs => (∀ ops, c = .load (some ops) → Loaded.KeepsLoaded { r with loaded := true } ops) ∧ DecodersKeep (Loaded.step r c) cs

theorem changes_snoc (a b : Bool) (ns : List (Bool × Bool)) (c : Bool) (h : Loaded.Changes a ns b) (hc : c ≠ b) :
    Loaded.Changes a (ns ++ [(b, c)]) c := by
  induction ns generalizing a with
  | nil => simp only [Loaded.Changes] at h; subst h; exact ⟨rfl, hc, rfl⟩
  | cons n ns ih => exact ⟨h.1, h.2.1, ih _ h.2.2⟩

/-- **C28**, notifications (partial): an observer is told every change of the flag, once and in order. -/
theorem C28_notified_partial (cs : List Call) (hc : AlwaysCurrent {} cs) (hd : DecodersKeep ⟨[], false⟩ cs) :
    Loaded.Changes false (Resource.run {} cs).notes (Resource.run {} cs).loaded := by
  have key : ∀ (cs : List Call) (s : St), AlwaysCurrent s cs → (contents s ≠ [] → s.loaded = true) → DecodersKeep (view s) cs →
      Loaded.Changes false s.notes s.loaded → Loaded.Changes false (Resource.run s cs).notes (Resource.run s cs).loaded := by
    intro cs
    induction cs with
    | nil => intro s _ _ _ h; exact h
    | cons c cs ih =>
      intro s hc hinv hd h
      obtain ⟨h1, h2⟩ := step_view s c hc.1 hinv
      refine ih _ hc.2 h2 (by rw [h1]; exact hd.2) ?_
      cases c with
      | getContents =>
        obtain ⟨g1, _, g3, _⟩ := getContents_view s
        have hv2 : (getContents s).1.loaded = s.loaded := congrArg Loaded.R.loaded g1
        change Loaded.Changes false (getContents s).1.notes (getContents s).1.loaded
        rw [g3, hv2]; exact h
      | list x op =>
        have h5 := (onList_view s x op hc.1 hinv).2
        change Loaded.Changes false (onList s x op).notes (onList s x op).loaded
        rw [h5]
        simp only [flagTo]
        split
        · rename_i he; rw [he]; exact h
        · rename_i he; exact changes_snoc _ _ _ _ h he
      | load o =>
        simp only [Resource.step, load]
        cases hl : s.loaded with
        | true => simp only [Bool.true_eq_false, if_false]; rw [hl] at h; rw [hl]; exact h
        | false =>
          simp only [if_true]
          cases o with
          | none => exact h
          | some ops =>
            have := (decode_view ops { s with loaded := true, decodes := s.decodes + 1 } (fun _ => rfl)).2.2 (hd.1 ops rfl) rfl
            simp only
            rw [this.1, this.2]
            rw [hl] at h
            exact changes_snoc _ _ _ _ h (by decide)
      | unload =>
        simp only [Resource.step, unload]
        cases hl : s.loaded with
        | true => simp only [if_true]; rw [hl] at h; exact changes_snoc _ _ _ _ h (by decide)
        | false => simp only [Bool.false_eq_true, if_false]; exact h
  exact key cs {} hc (by simp [contents]) hd rfl

/-- Non-vacuity: add, remove all, load two objects, unload, load nothing. -/
example : let cs : List Call := [.getContents, .list 0 (.op (.add 5)), .list 0 (.op (.removeAll [5])),
      .load (some [.op (.add 1), .op (.add 2)]), .load (some [.op (.add 3)]), .unload, .getContents, .load (some [])]
    AlwaysCurrent {} cs ∧ DecodersKeep ⟨[], false⟩ cs ∧ (Resource.run {} cs).loaded = true ∧
    (Resource.run {} cs).notes = [(false, true), (true, false), (false, true), (true, false), (false, true)] ∧
    (Resource.run {} cs).decodes = 2 ∧ contents (Resource.run {} (cs.take 5)) = [1, 2] := by
  refine ⟨?_, ?_, by decide, by decide, by decide, by decide⟩
  · simp only [AlwaysCurrent, usesCurrent, and_true, true_and]; exact ⟨by decide, by decide⟩
  · refine ⟨?_, ?_, ?_, ?_, ?_, ?_, ?_, ?_, trivial⟩ <;> intro ops h <;> cases h
    · exact ⟨by decide, by decide, trivial⟩
    · exact ⟨by decide, trivial⟩
    · trivial

/-- **C28 violated (1)**: after `Unload`, an addition to the list obtained before marks the resource as loaded although it is empty. -/
theorem C28_stale_list_violated :
    let s := Resource.run {} [.getContents, .list 0 (.op (.add 5)), .unload, .list 0 (.op (.add 6))]
    s.loaded = true ∧ contents s = [] := by decide

/-- **C28 violated (2)**: a decoder which leaves the resource not loaded (it clears the contents): the observer is told last that the
resource is loaded. -/
theorem C28_notification_violated :
    let s := Resource.run {} [.load (some [.op (.add 5), .op .clear])]
    s.loaded = false ∧ s.notes = [(true, false), (false, true)] := by decide

end Verif.Props
