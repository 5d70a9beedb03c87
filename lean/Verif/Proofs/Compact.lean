import Verif.Spec.Compact

/-! # Compact object storage: proofs -/

namespace Verif.Compact

/-- how a list of present values is stored -/
def enc : List Val → Storage
  | [] => .nil
  | [v] => .val v
  | l => .slice l

/-- the bits tell which fields are present -/
def Bits (flags : BitVec 64) (f : Nat → Option Val) (bs : List Nat) : Prop :=
  ∀ b ∈ bs, flags.getLsbD b = (f b).isSome

/-- the state stores the fields `f` -/
structure Rep (s : St) (f : Nat → Option Val) : Prop where
  bits : Bits s.flags f allBits
  store : s.storage = enc (allBits.filterMap f)

def updF (f : Nat → Option Val) (k : Nat) (v : Option Val) : Nat → Option Val :=
  fun b => if b = k then v else f b

theorem countSet_eq (flags : BitVec 64) (f) : ∀ bs, Bits flags f bs → countSet flags bs = (bs.filterMap f).length := by
  intro bs
  induction bs with
  | nil => intro _; rfl
  | cons b bs ih =>
    intro h
    have h1 := h b (by simp)
    have h2 := ih (fun x hx => h x (by simp [hx]))
    cases hf : f b <;> simp [countSet, h1, h2, hf, Nat.add_comm]

theorem any_eq (flags : BitVec 64) (f) : ∀ bs, Bits flags f bs →
    bs.any (fun b => flags.getLsbD b) = !(bs.filterMap f).isEmpty := by
  intro bs
  induction bs with
  | nil => intro _; rfl
  | cons b bs ih =>
    intro h
    have h1 := h b (by simp)
    have h2 := ih (fun x hx => h x (by simp [hx]))
    cases hf : f b <;> simp_all

theorem addLoop_eq (flags : BitVec 64) (f) (k : Nat) (v : Val) (hk : f k = none) : ∀ bs, Bits flags f bs →
    addLoop flags k v bs (bs.filterMap f) = some (bs.filterMap (updF f k (some v))) := by
  intro bs
  induction bs with
  | nil => intro _; rfl
  | cons b bs ih =>
    intro h
    have h1 := h b (by simp)
    have h2 := ih (fun x hx => h x (by simp [hx]))
    unfold addLoop
    by_cases hb : b = k
    · subst hb; simp [hk, h2, updF]
    · cases hf : f b <;> simp [hb, h1, hf, h2, updF]

theorem removeLoop_eq (flags : BitVec 64) (f) (k : Nat) (hk : (f k).isSome) : ∀ bs, Bits flags f bs →
    removeLoop flags k bs (bs.filterMap f) = some (bs.filterMap (updF f k none)) := by
  intro bs
  induction bs with
  | nil => intro _; rfl
  | cons b bs ih =>
    intro h
    have h1 := h b (by simp)
    have h2 := ih (fun x hx => h x (by simp [hx]))
    unfold removeLoop
    by_cases hb : b = k
    · subst hb
      obtain ⟨v, hv⟩ := Option.isSome_iff_exists.1 hk
      simp [hv, h2, updF]
    · cases hf : f b <;> simp [hb, h1, hf, h2, updF]

theorem split (k : Nat) (hk : k ∈ allBits) :
    allBits = allBits.filter (· < k) ++ k :: allBits.filter (k < ·) := by
  simp only [allBits, List.mem_cons, List.not_mem_nil, or_false] at hk
  rcases hk with rfl | rfl | rfl | rfl | rfl | rfl | rfl | rfl <;> rfl

theorem notin (k : Nat) : k ∉ allBits.filter (· < k) ∧ k ∉ allBits.filter (k < ·) := by
  simp

theorem fmap_upd (f) (k : Nat) (v) (bs : List Nat) (h : k ∉ bs) : bs.filterMap (updF f k v) = bs.filterMap f := by
  induction bs with
  | nil => rfl
  | cons b bs ih =>
    have hb : b ≠ k := fun e => h (by simp [e])
    have ht := ih (fun hx => h (by simp [hx]))
    simp [updF, hb, List.filterMap_cons] at ht ⊢
    rw [ht]

/-- lower and higher present values -/
theorem present (f : Nat → Option Val) (k : Nat) (hk : k ∈ allBits) :
    allBits.filterMap f =
      (allBits.filter (· < k)).filterMap f ++ ((f k).toList ++ (allBits.filter (k < ·)).filterMap f) := by
  conv => lhs; rw [split k hk]
  rw [List.filterMap_append, List.filterMap_cons]
  cases f k <;> rfl

theorem present_upd (f : Nat → Option Val) (k : Nat) (hk : k ∈ allBits) (v : Option Val) :
    allBits.filterMap (updF f k v) =
      (allBits.filter (· < k)).filterMap f ++ (v.toList ++ (allBits.filter (k < ·)).filterMap f) := by
  rw [present _ k hk, fmap_upd f k v _ (notin k).1, fmap_upd f k v _ (notin k).2]
  simp [updF]

theorem fieldIndex_eq {s : St} {f} (h : Rep s f) (k : Nat) :
    fieldIndex s k =
      if ((allBits.filter (· < k)).filterMap f) = [] then
        if ((allBits.filter (k < ·)).filterMap f) = [] then none else some 0
      else some ((allBits.filter (· < k)).filterMap f).length := by
  unfold fieldIndex
  have h1 : Bits s.flags f (allBits.filter (· < k)) := fun b hb => h.bits b (List.mem_filter.1 hb).1
  have h2 : Bits s.flags f (allBits.filter (k < ·)) := fun b hb => h.bits b (List.mem_filter.1 hb).1
  simp only [countSet_eq _ f _ h1, any_eq _ f _ h2]
  generalize (allBits.filter (· < k)).filterMap f = lo
  generalize (allBits.filter (k < ·)).filterMap f = hi
  cases lo <;> cases hi <;> simp

theorem hasField_eq {s : St} {f} (h : Rep s f) (k : Nat) (hk : k ∈ allBits) :
    hasField s k = (f k).isSome := h.bits k hk

theorem getField_eq {s : St} {f} (h : Rep s f) (k : Nat) (hk : k ∈ allBits) :
    getField s k = some (f k) := by
  unfold getField
  rw [hasField_eq h k hk, fieldIndex_eq h, h.store, present f k hk]
  generalize (allBits.filter (· < k)).filterMap f = lo
  generalize (allBits.filter (k < ·)).filterMap f = hi
  cases hf : f k with
  | none => simp
  | some v =>
    rcases lo with - | ⟨a, lo⟩
    · rcases hi with - | ⟨b, hi⟩ <;> simp [enc]
    · rcases lo with - | ⟨a', lo⟩
      · simp [enc]
      · simp [enc]

theorem bits_or (flags : BitVec 64) (f) (k : Nat) (v : Val) (hb : Bits flags f allBits) (hk : k ∈ allBits) :
    Bits (flags ||| (1#64 <<< k)) (updF f k (some v)) allBits := by
  intro b hb'
  have h0 := hb b hb'
  simp only [allBits, List.mem_cons, List.not_mem_nil, or_false] at hk hb'
  rw [BitVec.getLsbD_or, h0, BitVec.getLsbD_shiftLeft]
  rcases hk with rfl | rfl | rfl | rfl | rfl | rfl | rfl | rfl <;>
    rcases hb' with rfl | rfl | rfl | rfl | rfl | rfl | rfl | rfl <;> simp [updF]

theorem bits_and (flags : BitVec 64) (f) (k : Nat) (hb : Bits flags f allBits) (hk : k ∈ allBits) :
    Bits (flags &&& ~~~(1#64 <<< k)) (updF f k none) allBits := by
  intro b hb'
  have h0 := hb b hb'
  simp only [allBits, List.mem_cons, List.not_mem_nil, or_false] at hk hb'
  rw [BitVec.getLsbD_and, h0, BitVec.getLsbD_not, BitVec.getLsbD_shiftLeft]
  rcases hk with rfl | rfl | rfl | rfl | rfl | rfl | rfl | rfl <;>
    rcases hb' with rfl | rfl | rfl | rfl | rfl | rfl | rfl | rfl <;> simp [updF]

/-- what a write of one field leaves alone -/
def Same (k : Nat) (s s' : St) : Prop :=
  s'.container = s.container ∧ (∀ i, i ≠ k → s'.flags.getLsbD i = s.flags.getLsbD i)

theorem same_or (s : St) (k : Nat) (hk : k ∈ allBits) (st : Storage) :
    Same k s ⟨st, s.flags ||| (1#64 <<< k), s.container⟩ := by
  refine ⟨rfl, fun i hi => ?_⟩
  have : k < 64 := by simp [allBits] at hk; omega
  simp only [BitVec.getLsbD_or, BitVec.getLsbD_shiftLeft, BitVec.getLsbD_one]
  by_cases h1 : i < 64
  · have : ¬ (k ≤ i ∧ i - k = 0) := by omega
    by_cases h2 : k ≤ i <;> by_cases h3 : i - k = 0 <;> simp_all
  · simp [h1]

theorem same_and (s : St) (k : Nat) (hk : k ∈ allBits) (st : Storage) :
    Same k s ⟨st, s.flags &&& ~~~(1#64 <<< k), s.container⟩ := by
  refine ⟨rfl, fun i hi => ?_⟩
  have : k < 64 := by simp [allBits] at hk; omega
  simp only [BitVec.getLsbD_and, BitVec.getLsbD_not, BitVec.getLsbD_shiftLeft, BitVec.getLsbD_one]
  by_cases h1 : i < 64
  · have : ¬ (k ≤ i ∧ i - k = 0) := by omega
    by_cases h2 : k ≤ i <;> by_cases h3 : i - k = 0 <;> simp_all
  · have : s.flags.getLsbD i = false := BitVec.getLsbD_of_ge _ i (by omega)
    simp [this]

theorem enc_many {l : List Val} (h : 2 ≤ l.length) : enc l = .slice l := by
  rcases l with - | ⟨a, - | ⟨b, l⟩⟩ <;> simp_all [enc]

theorem addField_rep {s : St} {f} (h : Rep s f) (k : Nat) (hk : k ∈ allBits) (v : Val) (hf : f k = none) :
    ∃ s', addField s k v = some s' ∧ Rep s' (updF f k (some v)) ∧ Same k s s' := by
  have hb := bits_or s.flags f k v h.bits hk
  have hs := same_or s k hk
  have hc : fieldCount s = (allBits.filterMap f).length := countSet_eq _ _ _ h.bits
  have hl := addLoop_eq s.flags f k v hf allBits h.bits
  have hp := present f k hk
  have hu := present_upd f k hk (some v)
  rw [hf] at hp
  by_cases hn : 2 ≤ (allBits.filterMap f).length
  · refine ⟨⟨.slice (allBits.filterMap (updF f k (some v))), s.flags ||| (1#64 <<< k), s.container⟩, ?_, ⟨hb, ?_⟩, hs _⟩
    · unfold addField
      obtain ⟨n, hn'⟩ : ∃ n, (allBits.filterMap f).length = n + 2 := ⟨(allBits.filterMap f).length - 2, by omega⟩
      simp only [hc, hn', h.store, enc_many hn, hl]
      rfl
    · show Storage.slice _ = _
      rw [enc_many]
      rw [hu]; rw [hp] at hn; simp at hn ⊢; omega
  · have hi := fieldIndex_eq h k
    unfold addField
    simp only [hc, h.store, hi]
    rw [hp] at *
    clear hl hi hc
    generalize (allBits.filter (· < k)).filterMap f = lo at *
    generalize (allBits.filter (k < ·)).filterMap f = hi at *
    rcases lo with - | ⟨a, lo⟩
    · rcases hi with - | ⟨b, - | ⟨b', hi⟩⟩
      · exact ⟨_, rfl, ⟨hb, by rw [hu]; rfl⟩, hs _⟩
      · exact ⟨_, rfl, ⟨hb, by rw [hu]; rfl⟩, hs _⟩
      · simp at hn
    · rcases lo with - | ⟨a', lo⟩
      · rcases hi with - | ⟨b, hi⟩
        · exact ⟨_, rfl, ⟨hb, by rw [hu]; rfl⟩, hs _⟩
        · simp at hn
      · simp at hn

theorem removeField_rep {s : St} {f} (h : Rep s f) (k : Nat) (hk : k ∈ allBits) (hf : (f k).isSome) :
    ∃ s', removeField s k = some s' ∧ Rep s' (updF f k none) ∧ Same k s s' := by
  have hb := bits_and s.flags f k h.bits hk
  have hs := same_and s k hk
  have hc : fieldCount s = (allBits.filterMap f).length := countSet_eq _ _ _ h.bits
  have hp := present f k hk
  have hu := present_upd f k hk none
  have hl := removeLoop_eq s.flags f k hf allBits h.bits
  obtain ⟨v, hv⟩ := Option.isSome_iff_exists.1 hf
  rw [hv] at hp
  by_cases hn : 3 ≤ (allBits.filterMap f).length
  · refine ⟨⟨.slice (allBits.filterMap (updF f k none)), s.flags &&& ~~~(1#64 <<< k), s.container⟩, ?_, ⟨hb, ?_⟩, hs _⟩
    · unfold removeField
      obtain ⟨n, hn'⟩ : ∃ n, (allBits.filterMap f).length = n + 3 := ⟨(allBits.filterMap f).length - 3, by omega⟩
      simp only [hc, hn', h.store, enc_many (show 2 ≤ (allBits.filterMap f).length by omega), hl]
      rfl
    · show Storage.slice _ = _
      rw [enc_many]
      rw [hu]; rw [hp] at hn; simp at hn ⊢; omega
  · have hi := fieldIndex_eq h k
    unfold removeField
    simp only [hc, h.store, hi]
    rw [hp] at *
    clear hl hi hc
    generalize (allBits.filter (· < k)).filterMap f = lo at *
    generalize (allBits.filter (k < ·)).filterMap f = hi at *
    rcases lo with - | ⟨a, lo⟩
    · rcases hi with - | ⟨b, - | ⟨b', hi⟩⟩
      · exact ⟨_, rfl, ⟨hb, by rw [hu]; rfl⟩, hs _⟩
      · exact ⟨_, rfl, ⟨hb, by rw [hu]; rfl⟩, hs _⟩
      · simp at hn
    · rcases lo with - | ⟨a', lo⟩
      · rcases hi with - | ⟨b, hi⟩
        · exact ⟨_, rfl, ⟨hb, by rw [hu]; rfl⟩, hs _⟩
        · simp at hn
      · simp at hn

theorem setField_rep {s : St} {f} (h : Rep s f) (k : Nat) (hk : k ∈ allBits) (v : Option Val) :
    ∃ s', setField s k v = some s' ∧ Rep s' (updF f k v) ∧ Same k s s' := by
  unfold setField
  rw [hasField_eq h k hk]
  cases hf : f k with
  | none =>
    cases v with
    | none =>
      refine ⟨s, rfl, ?_, ⟨rfl, fun _ _ => rfl⟩⟩
      have : updF f k none = f := by funext b; by_cases hb : b = k <;> simp [updF, hb, hf]
      rw [this]; exact h
    | some v => exact addField_rep h k hk v hf
  | some w =>
    cases v with
    | none => exact removeField_rep h k hk (by simp [hf])
    | some v =>
      have hbits : Bits s.flags (updF f k (some v)) allBits := by
        intro b hb
        rw [h.bits b hb]
        by_cases e : b = k
        · subst e; simp [updF, hf]
        · simp [updF, e]
      have hu := present_upd f k hk (some v)
      have hp := present f k hk
      rw [hf] at hp
      simp only [fieldIndex_eq h, h.store]
      rw [hp]
      generalize (allBits.filter (· < k)).filterMap f = lo at *
      generalize (allBits.filter (k < ·)).filterMap f = hi at *
      rcases lo with - | ⟨a, lo⟩
      · rcases hi with - | ⟨b, hi⟩
        · exact ⟨_, rfl, ⟨hbits, by rw [hu]; rfl⟩, ⟨rfl, fun _ _ => rfl⟩⟩
        · exact ⟨_, rfl, ⟨hbits, by rw [hu]; rfl⟩, ⟨rfl, fun _ _ => rfl⟩⟩
      · have e1 : enc ((a :: lo) ++ ((some w).toList ++ hi)) = .slice ((a :: lo) ++ ((some w).toList ++ hi)) :=
          enc_many (by simp; omega)
        have e2 : enc ((a :: lo) ++ ((some v).toList ++ hi)) = .slice ((a :: lo) ++ ((some v).toList ++ hi)) :=
          enc_many (by simp; omega)
        simp only [Option.isSome_some, if_true, e1]
        refine ⟨⟨.slice ((a :: lo) ++ ((some v).toList ++ hi)), s.flags, s.container⟩, ?_, ⟨hbits, ?_⟩, ⟨rfl, fun _ _ => rfl⟩⟩
        · simp
        · show Storage.slice _ = _
          rw [hu, e2]

/-! ## The bits that are not fields -/

theorem fid_same {x y : BitVec 64} (h : ∀ i, 16 ≤ i → x.getLsbD i = y.getLsbD i) :
    x.sshiftRight 16 = y.sshiftRight 16 := by
  apply BitVec.eq_of_getLsbD_eq
  intro i hi
  rw [BitVec.getLsbD_sshiftRight, BitVec.getLsbD_sshiftRight]
  rw [h (16 + i) (by omega), BitVec.msb_eq_getLsbD_last, BitVec.msb_eq_getLsbD_last, h (64 - 1) (by omega)]

theorem fid_of_mask (x : BitVec 64) (id : Int) (h1 : -2 ^ 47 ≤ id) (h2 : id < 2 ^ 47) :
    (((BitVec.ofInt 64 id <<< 16) ||| (x &&& 0x00FF#64)).sshiftRight 16).toInt = id := by
  have e : ((BitVec.ofInt 64 id <<< 16) ||| (x &&& 0x00FF#64)).sshiftRight 16
      = (BitVec.ofInt 64 id <<< 16).sshiftRight 16 := by
    apply fid_same
    intro i hi
    rw [BitVec.getLsbD_or, BitVec.getLsbD_and]
    have : (0x00FF#64).getLsbD i = false := by
      rw [BitVec.getLsbD_ofNat]
      have : Nat.testBit 255 i = false := Nat.testBit_lt_two_pow (by
        calc 255 < 2 ^ 16 := by decide
          _ ≤ 2 ^ i := Nat.pow_le_pow_right (by decide) hi)
      simp [this]
    simp [this]
  rw [e, BitVec.toInt_sshiftRight]
  have : BitVec.ofInt 64 id <<< 16 = BitVec.ofInt 64 (id * 65536) := by
    rw [BitVec.shiftLeft_eq_mul_twoPow, BitVec.ofInt_mul]
    rfl
  rw [this, BitVec.toInt_ofInt]
  rw [Int.bmod_eq_of_le (by omega) (by omega)]
  rw [Int.shiftRight_eq_div_pow]
  omega

theorem mask_bits (x : BitVec 64) (id : Int) (i : Nat) (hi : i < 16) :
    ((BitVec.ofInt 64 id <<< 16) ||| (x &&& 0x00FF#64)).getLsbD i = (x.getLsbD i && decide (i < 8)) := by
  rw [BitVec.getLsbD_or, BitVec.getLsbD_shiftLeft, BitVec.getLsbD_and]
  have : (0x00FF#64).getLsbD i = decide (i < 8) := by
    rcases i with _ | _ | _ | _ | _ | _ | _ | _ | _ | _ | _ | _ | _ | _ | _ | _ | i <;> first | rfl | omega
  rw [this]
  simp [hi]

/-! ## Runs -/

/-- the fields stored for a view; `p` is what the proxy field holds -/
def fieldsOf (k : Kind) (v : View) (p : Option Val) (b : Nat) : Option Val :=
  if b = 1 then (match k with | .impl => v.container.map .ref | .container => none)
  else if b = 2 then v.resource.map .ref
  else if b = 3 then v.adapters.map .ref
  else if b = 4 then p
  else if b = 5 then v.eClass.map .ref
  else if b = 6 then v.contents.map .ref
  else if b = 7 then v.crossReferences.map .ref
  else if b = 8 then v.properties.map .ref
  else none

structure Inv (k : Kind) (s : St) (v : View) (p : Option Val) : Prop where
  rep : Rep s (fieldsOf k v p)
  proxy : toRef p = v.proxyURI
  deliver : s.flags.getLsbD 0 = v.deliver
  fid : (s.flags.sshiftRight 16).toInt = v.containerFeatureID
  own : k = .container → s.container = v.container.map .ref

theorem inv_init (k : Kind) : Inv k init Spec.init none := by
  refine ⟨⟨?_, ?_⟩, rfl, by decide, by decide, fun _ => rfl⟩
  · cases k <;> simp only [Bits] <;> decide
  · cases k <;> rfl

theorem same_deliver {k : Nat} {s s' : St} (h : Same k s s') (hk : 1 ≤ k) :
    s'.flags.getLsbD 0 = s.flags.getLsbD 0 := h.2 0 (by omega)

theorem same_fid {k : Nat} {s s' : St} (h : Same k s s') (hk : k ≤ 8) :
    s'.flags.sshiftRight 16 = s.flags.sshiftRight 16 := fid_same (fun i hi => h.2 i (by omega))

/-- a write of a field other than the container -/
theorem inv_set {k : Kind} {s : St} {v v' : View} {p p' : Option Val} (h : Inv k s v p) (b : Nat)
    (hb : b ∈ allBits) (x : Option Val) (hf : fieldsOf k v' p' = updF (fieldsOf k v p) b x)
    (hp : toRef p' = v'.proxyURI) (hd : v'.deliver = v.deliver)
    (hi : v'.containerFeatureID = v.containerFeatureID) (ho : k = .container → v'.container = v.container) :
    ∃ s', setField s b x = some s' ∧ Inv k s' v' p' := by
  obtain ⟨s', hs, hr, hsame⟩ := setField_rep h.rep b hb x
  have hb1 : 1 ≤ b ∧ b ≤ 8 := by simp [allBits] at hb; omega
  exact ⟨s', hs, hf ▸ hr, hp, by rw [same_deliver hsame hb1.1, h.deliver, hd],
    by rw [same_fid hsame hb1.2, h.fid, hi], fun e => by rw [hsame.1, h.own e, ho e]⟩

theorem mask_rep (k : Kind) (s : St) (v : View) (p : Option Val) (id : Int) (own : Option Val) (hpr : v.properties = none)
    (h : Rep s (fieldsOf k v p)) :
    Rep ⟨s.storage, (BitVec.ofInt 64 id <<< 16) ||| (s.flags &&& 0x00FF#64), own⟩ (fieldsOf k v p) := by
  refine ⟨?_, h.store⟩
  intro b hb
  have hb1 : b < 16 := by simp [allBits] at hb; omega
  rw [mask_bits _ _ _ hb1, h.bits b hb]
  by_cases h8 : b < 8
  · simp [h8]
  · have : b = 8 := by simp [allBits] at hb; omega
    subst this
    simp [fieldsOf, hpr]

/-- an operation that is not the loss of the properties, on a feature ID that fits -/
def Fits (v : View) : Op → Prop
  | .setContainer _ id => -2 ^ 47 ≤ id ∧ id < 2 ^ 47 ∧ v.properties = none
  | _ => True

/-- what the proxy field holds after an operation -/
def proxyAfter (p : Option Val) : Op → Option Val
  | .setProxyURI (some n) => some (.ref n)
  | .setProxyURI none => some .nilURI
  | _ => p

theorem inv_create {k : Kind} {s : St} {v v' : View} {p : Option Val} (h : Inv k s v p) (b fresh : Nat)
    (hb : b ∈ allBits) (old : Option Nat) (hold : fieldsOf k v p b = old.map .ref)
    (hf : fieldsOf k v' p = updF (fieldsOf k v p) b (some (.ref (old.getD fresh))))
    (hsome : old.isSome → v' = v)
    (hp : toRef p = v'.proxyURI) (hd : v'.deliver = v.deliver)
    (hi : v'.containerFeatureID = v.containerFeatureID) (ho : k = .container → v'.container = v.container) :
    ∃ s', create s b fresh = some s' ∧ Inv k s' v' p := by
  unfold create
  rw [getField_eq h.rep b hb, hold]
  cases old with
  | none => exact inv_set h b hb _ hf hp hd hi ho
  | some n => exact ⟨s, rfl, by rw [hsome rfl]; exact h⟩

theorem inv_step {k : Kind} {s : St} {v : View} {p : Option Val} (h : Inv k s v p) (o : Op) (ho : Fits v o) :
    ∃ s', step k s o = some s' ∧ Inv k s' (Spec.step v o) (proxyAfter p o) := by
  cases o with
  | setClass c =>
    refine inv_set h classFlag (by decide) _ ?_ h.proxy rfl rfl (fun _ => rfl)
    funext b; simp only [fieldsOf, updF, classFlag, Spec.step, proxyAfter]; grind
  | setDeliver d =>
    refine ⟨_, rfl, ⟨?_, h.rep.store⟩, h.proxy, ?_, ?_, h.own⟩
    · intro b hb
      have hb1 : 1 ≤ b ∧ b ≤ 8 := by simp [allBits] at hb; omega
      rw [show fieldsOf k (Spec.step v (.setDeliver d)) (proxyAfter p (.setDeliver d)) b = fieldsOf k v p b from rfl,
        ← h.rep.bits b hb]
      have hb0 : b ≠ 0 := by omega
      cases d
      · have : b < 64 := by omega
        simp only [Bool.false_eq_true, if_false, BitVec.getLsbD_and, BitVec.getLsbD_not, BitVec.getLsbD_one]
        simp [hb0, this]
      · simp [BitVec.getLsbD_one, hb0]
    · cases d <;> simp [Spec.step]
    · show (BitVec.sshiftRight _ 16).toInt = v.containerFeatureID
      rw [← h.fid]
      congr 1
      apply fid_same
      intro i hi
      have h0 : i ≠ 0 := by omega
      cases d
      · by_cases h64 : i < 64
        · simp only [Bool.false_eq_true, if_false, BitVec.getLsbD_and, BitVec.getLsbD_not, BitVec.getLsbD_one]
          simp [h0, h64]
        · have : s.flags.getLsbD i = false := BitVec.getLsbD_of_ge _ i (by omega)
          simp [this]
      · simp [BitVec.getLsbD_one, h0]
  | adapters fresh =>
    refine inv_create h adaptersFlag fresh (by decide) v.adapters rfl ?_ ?_ h.proxy rfl rfl (fun _ => rfl)
    · funext b; simp only [fieldsOf, updF, adaptersFlag, Spec.step]; grind
    · intro hs; obtain ⟨n, hn⟩ := Option.isSome_iff_exists.1 hs
      cases v; simp_all [Spec.step]
  | setProxyURI u =>
    cases u with
    | none =>
      refine inv_set (v' := Spec.step v (.setProxyURI none)) (p' := some .nilURI) h proxyFlag (by decide) (some .nilURI) ?_ rfl rfl rfl (fun _ => rfl)
      funext b; simp only [fieldsOf, updF, proxyFlag, Spec.step]; grind
    | some n =>
      refine inv_set (v' := Spec.step v (.setProxyURI (some n))) (p' := some (.ref n)) h proxyFlag (by decide) (some (.ref n)) ?_ rfl rfl rfl (fun _ => rfl)
      funext b; simp only [fieldsOf, updF, proxyFlag, Spec.step]; grind
  | contents fresh =>
    refine inv_create h contentsFlag fresh (by decide) v.contents rfl ?_ ?_ h.proxy rfl rfl (fun _ => rfl)
    · funext b; simp only [fieldsOf, updF, contentsFlag, Spec.step]; grind
    · intro hs; obtain ⟨n, hn⟩ := Option.isSome_iff_exists.1 hs
      cases v; simp_all [Spec.step]
  | crossReferences fresh =>
    refine inv_create h crossFlag fresh (by decide) v.crossReferences rfl ?_ ?_ h.proxy rfl rfl (fun _ => rfl)
    · funext b; simp only [fieldsOf, updF, crossFlag, Spec.step]; grind
    · intro hs; obtain ⟨n, hn⟩ := Option.isSome_iff_exists.1 hs
      cases v; simp_all [Spec.step]
  | setContainer c id =>
    obtain ⟨h1, h2, h3⟩ := ho
    cases k with
    | impl =>
      obtain ⟨s', hs, hr, hsame⟩ := setField_rep h.rep containerFlag (by decide) (c.map .ref)
      have hf : fieldsOf .impl (Spec.step v (.setContainer c id)) p = updF (fieldsOf .impl v p) containerFlag (c.map .ref) := by
        funext b; simp only [fieldsOf, updF, containerFlag, Spec.step]; grind
      refine ⟨_, by simp only [step, hs]; rfl, mask_rep .impl s' _ p id _ h3 (hf ▸ hr), h.proxy, ?_, fid_of_mask _ _ h1 h2, nofun⟩
      show BitVec.getLsbD _ 0 = v.deliver
      rw [mask_bits _ _ _ (by decide), same_deliver hsame (by decide), h.deliver]; simp
    | container =>
      refine ⟨_, rfl, mask_rep .container s _ p id _ h3 ?_, h.proxy, ?_, fid_of_mask _ _ h1 h2, fun _ => rfl⟩
      · exact h.rep
      · show BitVec.getLsbD _ 0 = v.deliver
        rw [mask_bits _ _ _ (by decide), h.deliver]; simp
  | setResource r =>
    refine inv_set h resourceFlag (by decide) _ ?_ h.proxy rfl rfl (fun _ => rfl)
    funext b; simp only [fieldsOf, updF, resourceFlag, Spec.step, proxyAfter]; grind
  | setProperties r =>
    refine inv_set h propertiesFlag (by decide) _ ?_ h.proxy rfl rfl (fun _ => rfl)
    funext b; simp only [fieldsOf, updF, propertiesFlag, Spec.step, proxyAfter]; grind

theorem toRef_map (x : Option Nat) : toRef (x.map .ref) = x := by cases x <;> rfl

theorem inv_view {k : Kind} {s : St} {v : View} {p : Option Val} (h : Inv k s v p) :
    view k s = some { v with isProxy := p.isSome } := by
  unfold view
  have hr := h.rep
  rw [getField_eq hr _ (by decide), getField_eq hr _ (by decide), getField_eq hr _ (by decide),
    getField_eq hr _ (by decide), getField_eq hr _ (by decide), getField_eq hr _ (by decide),
    getField_eq hr _ (by decide), getField_eq hr _ (by decide), hasField_eq hr _ (by decide)]
  have hp := h.proxy
  have hf := h.fid
  rw [h.deliver]
  cases k with
  | impl => simp [fieldsOf, classFlag, adaptersFlag, proxyFlag, contentsFlag, crossFlag, containerFlag, resourceFlag,
      propertiesFlag, toRef_map, hp, hf]
  | container => simp [fieldsOf, classFlag, adaptersFlag, proxyFlag, contentsFlag, crossFlag, resourceFlag,
      propertiesFlag, toRef_map, hp, hf, h.own rfl]

end Verif.Compact
