import Verif.Proofs.BinaryErrorsSame
import Verif.Props.Binary

/-!
# C81: a truncated or damaged binary document is reported as an error

Vocabulary: `Verif.Spec.BinaryErrors`.  A document is a stream of items.  `load env lim n r ts` is what happens to the resource `r`
when the stream `ts` is read with at most `n` nested calls and turns of a loop: it is read, or an error is added to its errors, or
the decoder panics, or the calls are not enough (`hang`).  A document is *accepted* if no error is added.

Missing in the partial theorems: damages that are accepted (data after the document, other numbers and strings of the right type),
and those that are panics.
-/

namespace Verif.BinaryErrors

open Binary

section

variable {D : Type} (env : Env D) (lim : Limits)

/-- reading is accepted: what was read -/
theorem accepted {n : Nat} {r r' : Resource} {ts : List (Tok D)} (h : load env lim n r ts = .ok r') (he : r'.errors = r.errors) :
    ∃ l objs rest, readResource env lim n ts = .ok ((l, objs), rest) ∧ r' = { r with contents := r.contents ++ l } := by
  unfold load at h
  split at h
  · rename_i l objs rest hr
    injection h with h
    exact ⟨l, objs, rest, hr, h.symm⟩
  · injection h with h
    rw [← h] at he
    simp at he
  · simp at h
  · simp at h

/-- Any accepted document has a point up to which it has to be there: a document that is cut before that adds an error to the
resource and nothing to its contents; the rest of it does not matter. -/
theorem C81_truncated_partial (n : Nat) (r r' : Resource) (ts : List (Tok D)) (h : load env lim n r ts = .ok r') (he : r'.errors = r.errors) :
    ∃ k, k ≤ ts.length ∧ 3 ≤ k ∧
      (∀ j, j < k → load env lim n r (ts.take j) = .ok { r with errors := r.errors + 1 }) ∧
      (∀ j, k ≤ j → load env lim n r (ts.take j) = .ok r') := by
  obtain ⟨l, objs, rest, hr, hr'⟩ := accepted env lim h he
  obtain ⟨used, hu, h1, h2⟩ := Det.readResource env lim n ts _ rest hr
  refine ⟨used.length, by simp [hu], ?_, ?_, ?_⟩
  · have e : Eats (2 + (1 + 0)) (readResource env lim n) := by
      refine Eats.bind ?_ fun _ => Eats.bind .int fun s => (Det.bind (.make lim s) fun k => .bind (.readObjects (Det.readObject env lim n) k {}) fun r => .pure _).shrinks
      intro ts v rest h
      rw [readHeader_ok h]
      simp
    have := e ts _ rest hr
    rw [hu] at this
    simp at this
    omega
  · intro j hj
    rw [hu, List.take_append_of_le_length (by omega)]
    have hj' : used = used.take j ++ used[j] :: used.drop (j + 1) := by simp
    have := h2 _ _ _ hj' [] (Or.inl rfl)
    rw [List.append_nil] at this
    simp [load, this]
  · intro j hj
    rw [hu, List.take_append, List.take_of_length_le (by omega)]
    simp [load, h1, hr']

/-- An item with a type that does not fit, among those that matter, adds an error, whatever comes after it. -/
theorem C81_wrong_type_partial (n : Nat) (r r' : Resource) (a b : List (Tok D)) (t : Tok D)
    (h : load env lim n r (a ++ t :: b) = .ok r') (he : r'.errors = r.errors) (hcut : load env lim n r a ≠ .ok r') :
    ∀ t' x, Clash t t' → load env lim n r (a ++ t' :: x) = .ok { r with errors := r.errors + 1 } := by
  obtain ⟨l, objs, rest, hr, hr'⟩ := accepted env lim h he
  obtain ⟨used, hu, h1, h2⟩ := Det.readResource env lim n _ _ rest hr
  intro t' x hc
  have hlt : a.length < used.length := by
    refine Decidable.byContradiction fun hge => hcut ?_
    obtain ⟨c, hc⟩ : ∃ c, a = used ++ c := by
      rcases List.append_eq_append_iff.1 hu with ⟨c, e1, e2⟩ | ⟨c, e1, e2⟩
      · have : c = [] := by
          have := congrArg List.length e1
          simp at this
          exact List.length_eq_zero_iff.1 (by omega)
        subst this
        exact ⟨[], by simpa using e1.symm⟩
      · exact ⟨c, e1⟩
    simp [load, hc, h1, hr']
  have hb : ∃ b', used = a ++ t :: b' := by
    rcases List.append_eq_append_iff.1 hu with ⟨c, e1, e2⟩ | ⟨c, e1, e2⟩
    · cases c with
      | nil => simp at e1; rw [e1] at hlt; omega
      | cons t0 c =>
        simp only [List.cons_append, List.cons.injEq] at e2
        exact ⟨c, by rw [e1, e2.1]⟩
    · rw [e1] at hlt; simp at hlt; omega
  obtain ⟨b', hb⟩ := hb
  have := h2 a t b' hb (t' :: x) (Or.inr ⟨t', x, rfl, hc⟩)
  simp [load, this]

/-- What the encoder writes has to be there up to its end: if it is accepted, then it adds an error when any of its items is missing. -/
theorem C81_written_partial (g : Graph D) (opt : Opt) (objects : List Nat) (contents : List (Option Nat)) (hv : Spec.Valid env g objects)
    (hc : ∀ x : Nat, some x ∈ contents → x ∈ objects ∧ g.proxy x = none) (depth n : Nat) (toks : List (Tok D)) (r r' : Resource)
    (hw : encodeResource env g opt binaryVersion depth contents = some toks) (h : load env lim n r toks = .ok r') (he : r'.errors = r.errors) :
    ∀ j, j < toks.length → load env lim n r (toks.take j) = .ok { r with errors := r.errors + 1 } := by
  obtain ⟨l, objs, rest, hr, hr'⟩ := accepted env lim h he
  suffices hrest : rest = [] by
    subst hrest
    obtain ⟨used, hu, h1, h2⟩ := Det.readResource env lim n _ _ _ hr
    simp only [List.append_nil] at hu
    subst hu
    intro j hj
    have hj' : toks = toks.take j ++ toks[j] :: toks.drop (j + 1) := by simp
    have := h2 _ _ _ hj' [] (Or.inl rfl)
    rw [List.append_nil] at this
    simp [load, this]
  simp only [encodeResource, Option.map_eq_some_iff] at hw
  obtain ⟨⟨st, ts⟩, h1, h2⟩ := hw
  obtain ⟨k1, k2⟩ := objects_spec (object_spec (opt := opt) hv depth) .container contents {} st ts h1 (fun x hx => hc x hx)
  have hr0 : Gives (readResource env lim n) toks ((l, objs), rest) := hr
  unfold readResource at hr0
  replace hr0 := bind_ok hr0; obtain ⟨_, mid, g1, hr0⟩ := hr0
  have e1 := readHeader_ok g1
  replace hr0 := bind_ok hr0; obtain ⟨s, mid, g1, hr0⟩ := hr0
  rw [int_ok g1] at e1
  replace hr0 := bind_ok hr0; obtain ⟨k, mid', g2, hr0⟩ := hr0
  obtain ⟨g3, g4, g5⟩ := make_ok g2
  replace hr0 := bind_ok hr0; obtain ⟨⟨l', d⟩, mid'', g6, hr0⟩ := hr0
  injection pure_ok hr0 with h6 h7
  rw [← h2] at e1
  simp only [List.cons.injEq, Tok.int.injEq, true_and] at e1
  obtain ⟨e2, e3⟩ := e1
  subst e3 g4 g5 h7
  have hs : s.toNat = contents.length := by omega
  rw [hs] at g6
  -- more calls than needed
  have g7 := Le.readObjects (Le.readObject env lim n (max n ts.length) (by omega)) contents.length {} ts
    (by rw [show readObjects (readObject env lim n) contents.length {} ts = _ from g6]; simp)
  rw [show readObjects (readObject env lim n) contents.length {} ts = _ from g6] at g7
  have g8 := readObjects_ok (readObject_ok env lim (max n ts.length)) _ _ _ _ _ _ g7
  obtain ⟨r0, d0, more, l1, -⟩ := k2 {} [] (max n ts.length) (rel_start env) rfl (by omega)
  rw [List.append_nil, g8] at l1
  simp only [Option.some.injEq, Prod.mk.injEq] at l1
  exact l1.2.2

/-- `DecodeObject`: a document that is cut where it matters, or has an item of a type that does not fit there, gives an error. -/
theorem C81_object_partial (n : Nat) (v : Option Nat × List (Copy D)) (ts rest : List (Tok D)) (h : readRoot env lim n ts = .ok (v, rest)) :
    ∃ used, ts = used ++ rest ∧ ∀ a t b, used = a ++ t :: b → ∀ x, Damaged t x → readRoot env lim n (a ++ x) = .error := by
  obtain ⟨used, hu, -, h2⟩ := Det.readRoot env lim n ts v rest h
  exact ⟨used, hu, h2⟩

/-- Any stream is read to an end, whatever it says: one call more than there are items is enough, and more calls change nothing. -/
theorem C81_ends (n : Nat) (r : Resource) (ts : List (Tok D)) (h : ts.length < n) :
    load env lim n r ts ≠ .hang ∧ ∀ m, n ≤ m → load env lim m r ts = load env lim n r ts := by
  have h1 := NoHang.readResource env lim n ts h
  refine ⟨?_, ?_⟩
  · unfold load
    split <;> simp_all
  · intro m hm
    unfold load
    rw [Le.readResource env lim n m hm ts h1]

/-- Documents with another signature or another version, or that begin otherwise, add an error. -/
theorem C81_header (n : Nat) (r : Resource) (ts : List (Tok D)) (h : ¬ [.bytes binarySignature, .int binaryVersion] <+: ts) :
    load env lim n r ts = .ok { r with errors := r.errors + 1 } := by
  suffices hs : readResource env lim n ts = .error by simp [load, hs]
  suffices hs : readHeader ts = .error by unfold readResource; rw [bind_eq, hs]
  unfold readHeader
  rw [bind_eq]
  match ts, h with
  | [], _ => rfl
  | .int _ :: _, _ => rfl
  | .str _ :: _, _ => rfl
  | .val _ _ :: _, _ => rfl
  | .any _ :: _, _ => rfl
  | .bytes sig :: ts, h =>
    simp only [bytes]
    by_cases hs : sig = binarySignature
    · rw [if_pos hs, bind_eq]
      match ts, h with
      | [], _ => rfl
      | .str _ :: _, _ => rfl
      | .bytes _ :: _, _ => rfl
      | .val _ _ :: _, _ => rfl
      | .any _ :: _, _ => rfl
      | .int v :: ts, h =>
        simp only [int]
        by_cases hv : v = binaryVersion
        · exact absurd ⟨ts, by rw [hs, hv]; rfl⟩ h
        · rw [if_neg hv]; rfl
    · rw [if_neg hs]; rfl

/-- Documents that are accepted are those of C22, with the same contents. -/
theorem C81_contents (n : Nat) (r r' : Resource) (ts : List (Tok D)) (h : load env lim n r ts = .ok r') (he : r'.errors = r.errors) :
    ∃ contents copies, decodeResource env ts = some (contents, copies) ∧ r'.contents = r.contents ++ contents := by
  obtain ⟨l, objs, rest, hr, hr'⟩ := accepted env lim h he
  exact ⟨l, objs, readResource_ok env lim hr, by rw [hr']⟩

/-! ### Violations -/

/-- The full claim fails: whatever comes after an accepted document is not noticed. -/
theorem C81_trailing_violated (n : Nat) (r r' : Resource) (ts x : List (Tok D)) (h : load env lim n r ts = .ok r') (he : r'.errors = r.errors) :
    load env lim n r (ts ++ x) = .ok r' := by
  obtain ⟨l, objs, rest, hr, hr'⟩ := accepted env lim h he
  obtain ⟨used, hu, h1, h2⟩ := Det.readResource env lim n ts _ rest hr
  have := h1 (rest ++ x)
  rw [← List.append_assoc, ← hu] at this
  simp [load, this, hr']

/-- A negative number of objects is a panic. -/
theorem C81_size_violated (n : Nat) (r : Resource) (size : Int) (x : List (Tok D)) (h : size < 0) :
    load env lim n r (.bytes binarySignature :: .int binaryVersion :: .int size :: x) = .panic := by
  have : readResource env lim n (.bytes binarySignature :: .int binaryVersion :: .int size :: x) = .panic := by
    show (make lim size >>= _) x = _
    rw [bind_eq, make, if_pos (Or.inl h)]
    rfl
  simp [load, this]

/-- A number of objects that is too large for the memory is a panic, even if the document ends there. -/
theorem C81_huge_violated (n : Nat) (r : Resource) (size : Int) (x : List (Tok D)) (h : lim.alloc size.toNat = false) :
    load env lim n r (.bytes binarySignature :: .int binaryVersion :: .int size :: x) = .panic := by
  have : readResource env lim n (.bytes binarySignature :: .int binaryVersion :: .int size :: x) = .panic := by
    show (make lim size >>= _) x = _
    rw [bind_eq, make, if_pos (Or.inr h)]
    rfl
  simp [load, this]

/-- A reference to an object with a negative number is a panic, unless the number is -1. -/
theorem C81_reference_violated (n : Nat) (r : Resource) (size : Nat) (id : Int) (x : List (Tok D)) (hs : lim.alloc (size + 1) = true) (h : id < -1) :
    load env lim (n + 1) r (.bytes binarySignature :: .int binaryVersion :: .int ((size : Int) + 1) :: .int id :: x) = .panic := by
  have e : readObject env lim (n + 1) {} (.int id :: x) = .panic := by
    rw [readObject, bind_eq]
    simp only [int]
    rw [if_neg (by omega), if_neg (by simp; omega), if_pos (by omega)]
    rfl
  have : readResource env lim (n + 1) (.bytes binarySignature :: .int binaryVersion :: .int ((size : Int) + 1) :: .int id :: x) = .panic := by
    show (make lim ((size : Int) + 1) >>= _) (.int id :: x) = _
    have h2 : ((size : Int) + 1).toNat = size + 1 := by omega
    rw [bind_eq, make, if_neg (by rw [h2, hs]; simp; omega), h2]
    show (readObjects (readObject env lim (n + 1)) (size + 1) {} >>= _) (.int id :: x) = _
    rw [bind_eq, readObjects, bind_eq, e]
  simp [load, this]

end

/-! ### Examples -/

namespace Damage

/-- colours are red and green; everything else is possible -/
def lim : Limits where
  creatable := fun _ => true
  literal := fun t s => t != 1 || s == "red" || s == "green"
  acceptsID := fun _ => true
  alloc := fun n => decide (n < 1000)

abbrev env : Env String := Binary.Sample.env Binary.Sample.features

/-- the graph of C22: two nodes, one of them contained in the other, and a proxy -/
def doc : List (Tok String) := (encodeResource env Binary.Sample.g { ids := true } binaryVersion 9 [some 0, some 1]).getD []

/-- a node named `a`, with a colour, and `x` in place of what follows its name -/
def node (c p : Int) (x : List (Tok String)) : List (Tok String) :=
  .bytes binarySignature :: .int 0 :: .int 1 :: .int 0 :: .int p :: .str "ns" :: .int 0 :: .str "pkg" :: .str "/" :: .int c :: .str "Node" :: x

def tail (color : String) : List (Tok String) := [.int 1, .str "name", .val .string "a", .int 5, .str "color", .int 0, .str color, .int 0]

end Damage

example : Damage.doc.length = 58 ∧ load Damage.env Damage.lim 60 ⟨[some 7], 0⟩ Damage.doc = .ok ⟨[some 7, some 0, some 1], 0⟩ := by decide +kernel

/-- cut anywhere, it is an error -/
example : ∀ j, j < Damage.doc.length → load Damage.env Damage.lim 60 ⟨[some 7], 0⟩ (Damage.doc.take j) = .ok ⟨[some 7], 1⟩ :=
  C81_written_partial Damage.env Damage.lim Binary.Sample.g { ids := true } [0, 1, 2] [some 0, some 1] Binary.Sample.valid
    (by simp [Binary.Sample.g, Binary.Sample.graph]) 9 60 Damage.doc ⟨[some 7], 0⟩ ⟨[some 7, some 0, some 1], 0⟩ (by decide +kernel) (by decide +kernel) rfl

/-- a string in place of the number of the class -/
example : ∀ x, load Damage.env Damage.lim 60 ⟨[], 0⟩ (Damage.doc.take 9 ++ .str "Node" :: x) = .ok ⟨[], 1⟩ := by
  have hd : Damage.doc = Damage.doc.take 9 ++ .int 0 :: Damage.doc.drop 10 := by decide +kernel
  intro x
  exact C81_wrong_type_partial Damage.env Damage.lim 60 ⟨[], 0⟩ ⟨[some 0, some 1], 0⟩ (Damage.doc.take 9) (Damage.doc.drop 10) (.int 0)
    (by rw [← hd]; decide +kernel) rfl (by decide +kernel) _ x (.intStr 0 "Node")

example : ∃ v, readRoot Damage.env Damage.lim 60 (.bytes binarySignature :: .int 0 :: Damage.doc.drop 3) = .ok v := by
  generalize hr : readRoot Damage.env Damage.lim 60 _ = r
  have : (match readRoot Damage.env Damage.lim 60 (.bytes binarySignature :: .int 0 :: Damage.doc.drop 3) with | .ok _ => true | _ => false) = true := by
    decide +kernel
  rw [hr] at this
  cases r <;> simp_all

/-- a node that is accepted -/
theorem Damage.node_accepted : load Damage.env Damage.lim 30 ⟨[], 0⟩ (Damage.node 0 0 (Damage.tail "red")) = .ok ⟨[some 0], 0⟩ := by decide +kernel

/-- The full claim fails: a green node in place of a red one is not noticed. -/
theorem C81_changed_violated : ∃ ts : List (Tok String), load Damage.env Damage.lim 30 ⟨[], 0⟩ ts = .ok ⟨[some 0], 0⟩ ∧
    (decodeResource Damage.env (Damage.node 0 0 (Damage.tail "red"))).map (fun r => r.2.map fun c => c.slot 4) = some [some (.data "red")] ∧
    (decodeResource Damage.env ts).map (fun r => r.2.map fun c => c.slot 4) = some [some (.data "green")] :=
  ⟨Damage.node 0 0 (Damage.tail "green"), by decide +kernel, by decide +kernel, by decide +kernel⟩

/-- A number of a package, of a class, of a feature that there is not, is a panic; a package, a class, a feature with a name that there is
not are errors. -/
theorem C81_number_violated :
    load Damage.env Damage.lim 30 ⟨[], 0⟩ (Damage.node 0 (-1) (Damage.tail "red")) = .panic ∧
    load Damage.env Damage.lim 30 ⟨[], 0⟩ (Damage.node 1 0 (Damage.tail "red")) = .panic ∧
    load Damage.env Damage.lim 30 ⟨[], 0⟩ (Damage.node (-1) 0 (Damage.tail "red")) = .panic ∧
    load Damage.env Damage.lim 30 ⟨[], 0⟩ (Damage.node 0 0 [.int 9, .str "name", .val .string "a", .int 0]) = .panic ∧
    load Damage.env Damage.lim 30 ⟨[], 0⟩ (Damage.node 0 0 [.int (-5), .str "name", .val .string "a", .int 0]) = .panic ∧
    load Damage.env Damage.lim 30 ⟨[], 0⟩ (Damage.node 0 0 [.int 1, .str "nam", .val .string "a", .int 0]) = .ok ⟨[], 1⟩ := by decide +kernel

/-- A literal that the enum does not have is a panic. -/
theorem C81_literal_violated : load Damage.env Damage.lim 30 ⟨[], 0⟩ (Damage.node 0 0 (Damage.tail "blue")) = .panic := by decide +kernel

/-- An object of an abstract class is a panic. -/
theorem C81_abstract_violated :
    load Damage.env { Damage.lim with creatable := fun _ => false } 30 ⟨[], 0⟩ (Damage.node 0 0 (Damage.tail "red")) = .panic := by decide +kernel

/-- The name of a feature with many values for the number of one with a single value is a panic. -/
theorem C81_shape_violated :
    load Damage.env Damage.lim 30 ⟨[], 0⟩ (Damage.node 0 0 [.int 1, .str "children", .int 0, .int 0]) = .panic := by decide +kernel

/-- The name of another feature with a single value is not noticed: its value is set in place of the other. -/
theorem C81_name_violated :
    load Damage.env Damage.lim 30 ⟨[], 0⟩ (Damage.node 0 0 [.int 1, .str "next", .int (-1), .int 0]) = .ok ⟨[some 0], 0⟩ := by decide +kernel

example : load Damage.env Damage.lim 60 ⟨[], 0⟩ (Damage.doc ++ [.int 3]) = .ok ⟨[some 0, some 1], 0⟩ :=
  C81_trailing_violated Damage.env Damage.lim 60 ⟨[], 0⟩ _ Damage.doc [.int 3] (by decide +kernel) rfl

example : load Damage.env Damage.lim 1 ⟨[], 0⟩ [.bytes binarySignature, .int 0, .int 5000] = .panic :=
  C81_huge_violated Damage.env Damage.lim 1 ⟨[], 0⟩ 5000 [] rfl

example : load Damage.env Damage.lim 1 ⟨[], 0⟩ [.bytes binarySignature, .int 0, .int 1, .int (-2)] = .panic :=
  C81_reference_violated Damage.env Damage.lim 0 ⟨[], 0⟩ 0 (-2) [] rfl (by decide)

/-- the first version is missing -/
example : load Damage.env Damage.lim 9 ⟨[some 3], 2⟩ [.bytes binarySignature, .int 1, .int 0] = .ok ⟨[some 3], 3⟩ :=
  C81_header Damage.env Damage.lim 9 ⟨[some 3], 2⟩ _ (by decide)

/-- a document that refers to itself in any way ends -/
example : load Damage.env Damage.lim 8 ⟨[], 0⟩ [.bytes binarySignature, .int 0, .int 900, .int (-1), .int (-1)] = .ok ⟨[], 1⟩ := by decide +kernel

end Verif.BinaryErrors
