import Verif.Model.XMLNamespaces
/-
Property C24: XML namespaces.
-/
namespace Verif.Spec.Scope
open Verif.XMLNamespaces

/-- The declarations in force, innermost element first, the latest declaration of an element first. -/
abbrev Scopes := List (List (String × String))

/-- Declaration in an element: replaces the one of the same prefix in this element. -/
def declareIn (scope : List (String × String)) (pre uri : String) : List (String × String) :=
  if scope.any (fun p => p.1 == pre) then scope.map (fun p => if p.1 = pre then (pre, uri) else p) else (pre, uri) :: scope

/-- What happens at the beginning and the end of an element and at a declaration; `none`: not well nested. -/
def after : Scopes → List Op → Option Scopes
  | sc, [] => some sc
  | sc, .push :: ops => after ([] :: sc) ops
  | _ :: sc, .pop :: ops => after sc ops
  | [], .pop :: _ => none
  | s :: sc, .declare pre uri :: ops => after (declareIn s pre uri :: sc) ops
  | [], .declare _ _ :: _ => none

/-- The URI of a prefix: that of the innermost element which declares it. -/
def uriOf : Scopes → String → Option String
  | [], _ => none
  | s :: sc, pre => match s.find? (fun p => p.1 == pre) with
    | some p => some p.2
    | none => uriOf sc pre

/-- A prefix of a URI: the latest declared one, innermost element first. -/
def prefixOf : Scopes → String → Option String
  | [], _ => none
  | s :: sc, uri => match s.find? (fun p => p.2 == uri) with
    | some p => some p.1
    | none => prefixOf sc uri

end Verif.Spec.Scope

namespace Verif.Props
open Verif.XMLNamespaces Verif.Spec.Scope

/-- The declarations in force in the order of the array. -/
def flatOf (sc : Scopes) : List (String × String) := sc.flatten.reverse

/-- The context array up to the current one: number of declarations outside each open element, innermost first. -/
def bottoms : Scopes → List Nat
  | [] => []
  | _ :: sc => sc.flatten.length :: bottoms sc

/-- The array represents the scopes. -/
structure XMLNamespaces.Rep (n : St) (sc : Scopes) : Prop where
  size : n.namespacesSize = sc.flatten.length
  data : n.namespaces.take n.namespacesSize = flatOf sc
  depth : n.currentContext = (sc.length : Int) - 1
  ctx : n.contexts.take sc.length = (bottoms sc).reverse
  /-- no prefix twice in an element -/
  once : ∀ s ∈ sc, (s.map (·.1)).Nodup

theorem length_bottoms (sc : Scopes) : (bottoms sc).length = sc.length := by induction sc <;> simp [bottoms, *]

/-- `declare` after declarations were popped does not work (see the violated theorems); here it may happen only when the array has no
room left, or for a prefix already declared in the same element. -/
def canDeclare (n : St) (sc : Scopes) : Op → Prop
  | .declare pre _ => n.namespacesSize = n.namespaces.length ∨ ∃ s ∈ sc.head?, s.any (fun p => p.1 == pre)
  | _ => True

theorem XMLNamespaces.ctx_top {n : St} {s : List (String × String)} {sc : Scopes} (h : XMLNamespaces.Rep n (s :: sc)) :
    at? n.contexts n.currentContext = some sc.flatten.length := by
  have hd : n.currentContext = (sc.length : Int) := by have := h.depth; simp at this; omega
  have hc := h.ctx
  simp only [List.length_cons, bottoms, List.reverse_cons] at hc
  rw [at?, hd, if_pos (by omega)]
  have := congrArg (fun l => l[sc.length]?) hc
  simp only [Int.toNat_natCast]
  have hl : sc.length = (bottoms sc).reverse.length := by simp [length_bottoms]
  rw [List.getElem?_take_of_lt (by omega)] at this
  rw [this, List.getElem?_append_right (by omega)]
  simp [hl]

theorem lookup_spec (test : String × String → Bool) (l : List (String × String)) (i : Nat) (hi : i ≤ l.length) :
    lookup l test i = (l.take i).reverse.find? test := by
  induction i with
  | zero => simp [lookup]
  | succ i ih =>
    have hlt : i < l.length := by omega
    rw [lookup, List.getElem?_eq_getElem hlt, List.take_succ, List.getElem?_eq_getElem hlt]
    simp only [Option.toList_some, List.reverse_append, List.reverse_cons, List.reverse_nil, List.nil_append,
      List.singleton_append, List.find?_cons, ih (by omega)]
    cases test l[i] <;> rfl

theorem uriOf_flat (sc : Scopes) (pre : String) : uriOf sc pre = (sc.flatten.find? (fun p => p.1 == pre)).map (·.2) := by
  induction sc with
  | nil => rfl
  | cons s sc ih =>
    rw [uriOf, List.flatten_cons, List.find?_append]
    cases s.find? (fun p => p.1 == pre) <;> simp [ih]

theorem prefixOf_flat (sc : Scopes) (uri : String) : prefixOf sc uri = (sc.flatten.find? (fun p => p.2 == uri)).map (·.1) := by
  induction sc with
  | nil => rfl
  | cons s sc ih =>
    rw [prefixOf, List.flatten_cons, List.find?_append]
    cases s.find? (fun p => p.2 == uri) <;> simp [ih]

theorem XMLNamespaces.Rep.le {n : St} {sc : Scopes} (h : XMLNamespaces.Rep n sc) : n.namespacesSize ≤ n.namespaces.length := by
  have := congrArg List.length h.data
  simp only [List.length_take, flatOf, List.length_reverse, ← h.size] at this
  omega

theorem XMLNamespaces.Rep.getURI {n : St} {sc : Scopes} (h : XMLNamespaces.Rep n sc) (pre : String) : XMLNamespaces.getURI n pre = uriOf sc pre := by
  rw [XMLNamespaces.getURI, lookup_spec _ _ _ h.le, h.data, uriOf_flat, flatOf, List.reverse_reverse]

theorem XMLNamespaces.Rep.getPrefix {n : St} {sc : Scopes} (h : XMLNamespaces.Rep n sc) (uri : String) :
    XMLNamespaces.getPrefix n uri = prefixOf sc uri := by
  rw [XMLNamespaces.getPrefix, lookup_spec _ _ _ h.le, h.data, prefixOf_flat, flatOf, List.reverse_reverse]

/-- The search in the current element. -/
theorem findPrefix_spec (outer inner rest : List (String × String)) (pre : String) :
    findPrefix (outer ++ inner.reverse ++ rest) outer.length pre (outer.length + inner.length) =
      some ((inner.findIdx? (fun p => p.1 == pre)).map fun k => outer.length + (inner.length - 1 - k)) := by
  induction inner generalizing rest with
  | nil => cases h : outer.length <;> simp [findPrefix, h]
  | cons p inner ih =>
    have hlen : outer.length + (p :: inner).length = (outer.length + inner.length) + 1 := by simp; omega
    rw [hlen, findPrefix, if_pos (by omega)]
    have hget : (outer ++ (p :: inner).reverse ++ rest)[outer.length + inner.length]? = some p := by
      rw [List.reverse_cons, List.append_assoc, List.append_assoc, List.getElem?_append_right (by omega),
        List.getElem?_append_right (by simp)]
      simp
    rw [hget]
    simp only [List.findIdx?_cons]
    by_cases hp : p.1 = pre
    · simp [hp]
    · rw [if_neg hp]
      have he : outer ++ (p :: inner).reverse ++ rest = outer ++ inner.reverse ++ (p :: rest) := by simp
      rw [he, ih]
      simp only [hp, beq_iff_eq, if_false, Option.map_map]
      congr 1
      cases hf : inner.findIdx? (fun p => p.1 == pre) with
      | none => rfl
      | some k =>
        have := (List.findIdx?_eq_some_iff_getElem.1 hf).1
        simp only [Option.map_some, Function.comp, List.length_cons]
        congr 2; omega

theorem set_of_nodup (inner : List (String × String)) (pre uri : String) (k : Nat) (hn : (inner.map (·.1)).Nodup)
    (hk : inner.findIdx? (fun p => p.1 == pre) = some k) :
    inner.set k (pre, uri) = inner.map (fun p => if p.1 = pre then (pre, uri) else p) := by
  obtain ⟨hlt, hkp, _⟩ := List.findIdx?_eq_some_iff_getElem.1 hk
  simp only [beq_iff_eq] at hkp
  apply List.ext_getElem (by simp)
  intro i h1 h2
  simp only [List.length_set] at h1
  rw [List.getElem_set, List.getElem_map]
  by_cases hik : k = i
  · subst hik; simp [hkp]
  · rw [if_neg hik, if_neg]
    intro hi
    have hinj := List.pairwise_iff_getElem.1 hn
    rcases Nat.lt_or_ge i k with hlt' | hge
    · exact hinj i k (by simpa using h1) (by simpa using hlt) hlt' (by simp [hi, hkp])
    · exact hinj k i (by simpa using hlt) (by simpa using h1) (by omega) (by simp [hi, hkp])

theorem XMLNamespaces.rep_step (n : St) (sc sc' : Scopes) (op : Op) (h : XMLNamespaces.Rep n sc) (hs : after sc [op] = some sc')
    (hok : canDeclare n sc op) : ∃ n', XMLNamespaces.step n op = some n' ∧ XMLNamespaces.Rep n' sc' := by
  cases op with
  | push =>
    simp only [after, Option.some.injEq] at hs
    subst hs
    have hd := h.depth
    have hctx := h.ctx
    have hlen : sc.length ≤ n.contexts.length := by
      have := congrArg List.length hctx
      simp only [List.length_take, List.length_reverse, length_bottoms] at this; omega
    have hc : n.currentContext + 1 = (sc.length : Int) := by omega
    simp only [XMLNamespaces.step, pushContext, hc]
    by_cases hge : (sc.length : Int) ≥ n.contexts.length
    · rw [if_pos hge]
      refine ⟨_, rfl, ⟨by simpa using h.size, by simpa [flatOf] using h.data, by simp, ?_, ?_⟩⟩
      · have : n.contexts.length = sc.length := by omega
        simp only [List.length_cons, bottoms, List.reverse_cons]
        rw [List.take_of_length_le (by simp; omega), ← hctx, List.take_of_length_le (by omega), h.size]
      · intro s hs
        rcases List.mem_cons.1 hs with rfl | hs
        · simp
        · exact h.once s hs
    · rw [if_neg hge, if_pos (by omega)]
      refine ⟨_, rfl, ⟨by simpa using h.size, by simpa [flatOf] using h.data, by simp, ?_, ?_⟩⟩
      · simp only [Int.toNat_natCast, List.length_cons, bottoms, List.reverse_cons]
        have hlt : sc.length < n.contexts.length := by omega
        rw [List.take_succ, List.getElem?_set_self hlt, List.take_set_of_le (by omega), hctx, h.size]
        rfl
      · intro s hs
        rcases List.mem_cons.1 hs with rfl | hs
        · simp
        · exact h.once s hs
  | pop =>
    cases sc with
    | nil => simp [after] at hs
    | cons s sc =>
      simp only [after, Option.some.injEq] at hs
      subst hs
      have ht := XMLNamespaces.ctx_top h
      have hle := h.le
      have hsz := h.size
      simp only [List.flatten_cons, List.length_append] at hsz
      simp only [XMLNamespaces.step, popContext, ht]
      rw [if_pos (by omega)]
      refine ⟨_, rfl, ⟨rfl, ?_, ?_, ?_, ?_⟩⟩
      · have := congrArg (List.take sc.flatten.length) h.data
        rw [List.take_take] at this
        simp only [flatOf, List.flatten_cons, List.reverse_append] at this
        rw [Nat.min_eq_left (by omega)] at this
        change n.namespaces.take sc.flatten.length = flatOf sc
        rw [this, List.take_append_of_le_length (by simp), flatOf, List.take_of_length_le (by simp)]
      · have := h.depth
        simp only [List.length_cons] at this
        change n.currentContext - 1 = _
        omega
      · have := congrArg (List.take sc.length) h.ctx
        rw [List.take_take] at this
        simp only [List.length_cons, bottoms, List.reverse_cons] at this
        rw [Nat.min_eq_left (by omega)] at this
        change n.contexts.take sc.length = _
        rw [this, List.take_append_of_le_length (by simp [length_bottoms]), List.take_of_length_le (by simp [length_bottoms])]
      · intro t ht'
        exact h.once t (by simp [ht'])
  | declare pre uri =>
    cases sc with
    | nil => simp [after] at hs
    | cons s sc =>
      simp only [after, Option.some.injEq] at hs
      subst hs
      have ht := XMLNamespaces.ctx_top h
      have hle := h.le
      have hsz := h.size
      have honce := h.once s (by simp)
      simp only [List.flatten_cons, List.length_append] at hsz
      simp only [XMLNamespaces.step, declarePrefix, ht]
      -- the array: outer declarations, those of the element, the rest
      have hsplit : n.namespaces = sc.flatten.reverse ++ s.reverse ++ n.namespaces.drop n.namespacesSize := by
        conv => lhs; rw [← List.take_append_drop n.namespacesSize n.namespaces, h.data]
        simp [flatOf]
      have hfind : findPrefix n.namespaces sc.flatten.length pre n.namespacesSize =
          some ((s.findIdx? (fun p => p.1 == pre)).map fun k => sc.flatten.length + (s.length - 1 - k)) := by
        have := findPrefix_spec sc.flatten.reverse s (n.namespaces.drop n.namespacesSize) pre
        rw [← hsplit] at this
        simp only [List.length_reverse] at this
        rw [hsz, Nat.add_comm s.length, this]
      rw [hfind]
      cases hf : s.findIdx? (fun p => p.1 == pre) with
      | some k =>
        have hlt : k < s.length := (List.findIdx?_eq_some_iff_getElem.1 hf).1
        have hany : s.any (fun p => p.1 == pre) = true := by
          have := (List.findIdx?_eq_some_iff_getElem.1 hf).2.1
          exact List.any_eq_true.2 ⟨s[k], List.getElem_mem hlt, this⟩
        have hdecl : declareIn s pre uri = s.set k (pre, uri) := by
          rw [declareIn, if_pos hany, set_of_nodup s pre uri k honce hf]
        rw [hdecl]
        simp only [Option.map_some]
        have hnew : n.namespaces.set (sc.flatten.length + (s.length - 1 - k)) (pre, uri) =
            sc.flatten.reverse ++ (s.set k (pre, uri)).reverse ++ n.namespaces.drop n.namespacesSize := by
          conv => lhs; rw [hsplit]
          rw [List.append_assoc, List.set_append_right _ _ (by simp)]
          rw [List.set_append_left _ _ (by simp; omega)]
          have : (s.set k (pre, uri)).reverse = s.reverse.set (s.length - 1 - k) (pre, uri) := by
            apply List.ext_getElem? ; intro i
            by_cases hi : i < s.length
            · rw [List.getElem?_reverse (by simpa using hi)]
              simp only [List.length_set, List.getElem?_set, List.length_reverse]
              rw [List.getElem?_reverse hi]
              by_cases h1 : k = s.length - 1 - i
              · have : s.length - 1 - k = i := by omega
                rw [if_pos h1, if_pos this, if_pos hlt, if_pos (by omega)]
              · have : ¬ s.length - 1 - k = i := by omega
                simp [h1, this]
            · rw [List.getElem?_eq_none (by simp; omega), List.getElem?_eq_none (by simp; omega)]
          rw [this]; simp
        refine ⟨_, rfl, ⟨?_, ?_, ?_, ?_, ?_⟩⟩
        · simp [hsz]
        · change (n.namespaces.set _ _).take n.namespacesSize = _
          rw [hnew, flatOf, List.flatten_cons, List.reverse_append]
          apply List.take_left'
          simp [hsz]; omega
        · simpa using h.depth
        · simpa [bottoms] using h.ctx
        · intro t ht'
          rcases List.mem_cons.1 ht' with rfl | ht'
          · rw [← hdecl, declareIn, if_pos hany, List.map_map]
            have : s.map ((fun p : String × String => p.1) ∘ fun p => if p.1 = pre then (pre, uri) else p) = s.map (·.1) := by
              apply List.map_congr_left
              intro p _
              by_cases hp : p.1 = pre <;> simp [Function.comp, hp]
            rw [this]; exact honce
          · exact h.once t (by simp [ht'])
      | none =>
        have hany : s.any (fun p => p.1 == pre) = false := by
          rw [List.any_eq_false]
          intro p hp
          have := List.findIdx?_eq_none_iff.1 hf p hp
          simpa using this
        have hroom : n.namespacesSize = n.namespaces.length := by
          rcases hok with hok | ⟨t, ht', hok⟩
          · exact hok
          · simp only [List.head?_cons, Option.mem_def, Option.some.injEq] at ht'
            subst ht'
            rw [hany] at hok; cases hok
        simp only [Option.map_none]
        rw [if_pos (by omega)]
        refine ⟨_, rfl, ⟨?_, ?_, ?_, ?_, ?_⟩⟩
        · simp [declareIn, hany, hsz]
        · change (n.namespaces ++ [(pre, uri)]).take (n.namespacesSize + 1) = _
          rw [List.take_of_length_le (by simp; omega)]
          have := h.data
          rw [hroom, List.take_of_length_le (by omega)] at this
          rw [this]
          simp [flatOf, declareIn, hany]
        · simpa [declareIn, hany] using h.depth
        · simpa [bottoms, declareIn, hany] using h.ctx
        · intro t ht'
          rcases List.mem_cons.1 ht' with rfl | ht'
          · simp only [declareIn, hany, Bool.false_eq_true, if_false, List.map_cons, List.nodup_cons]
            refine ⟨?_, honce⟩
            intro hm
            obtain ⟨p, hp, hpp⟩ := List.mem_map.1 hm
            have := List.any_eq_false.1 hany p hp
            simp [hpp] at this
          · exact h.once t (by simp [ht'])

theorem after_cons (sc : Scopes) (op : Op) (ops : List Op) :
    after sc (op :: ops) = (after sc [op]).bind fun sc' => after sc' ops := by
  cases op <;> cases sc <;> rfl

/-- Every declaration of the history is one `canDeclare` allows. -/
def AllCanDeclare : St → Scopes → List Op → Prop
  | _, _, [] => True
  | n, sc, op :: ops => canDeclare n sc op ∧
    ∀ n' sc', XMLNamespaces.step n op = some n' → after sc [op] = some sc' → AllCanDeclare n' sc' ops

theorem XMLNamespaces.run_rep : ∀ (ops : List Op) (n : St) (sc sc' : Scopes), XMLNamespaces.Rep n sc → after sc ops = some sc' →
    AllCanDeclare n sc ops → ∃ n', run n ops = some n' ∧ XMLNamespaces.Rep n' sc' := by
  intro ops
  induction ops with
  | nil =>
    intro n sc sc' h hs _
    simp only [after, Option.some.injEq] at hs
    subst hs
    exact ⟨n, rfl, h⟩
  | cons op ops ih =>
    intro n sc sc' h hs hok
    rw [after_cons] at hs
    cases h1 : after sc [op] with
    | none => simp [h1] at hs
    | some sc1 =>
      rw [h1, Option.bind_some] at hs
      obtain ⟨n1, hn1, hr⟩ := XMLNamespaces.rep_step n sc sc1 op h h1 hok.1
      obtain ⟨n', h2, h3⟩ := ih n1 sc1 sc' hr hs (hok.2 n1 sc1 hn1 h1)
      exact ⟨n', by rw [run, hn1]; exact h2, h3⟩

/-- **C24** (partial). For every well nested sequence of element starts, declarations and element ends, the URI found for a prefix is the
one of the innermost enclosing declaration and no call panics — as long as no new prefix is declared while the array still has room left by
declarations which were popped. Missing: those declarations, for which the property fails (below). -/
theorem C24_scoping_partial (ops : List Op) (sc : Scopes) (hn : after [] ops = some sc) (hok : AllCanDeclare {} [] ops) :
    ∃ n, run {} ops = some n ∧ (∀ pre, getURI n pre = uriOf sc pre) ∧ ∀ uri, getPrefix n uri = prefixOf sc uri := by
  obtain ⟨n, h1, h2⟩ := XMLNamespaces.run_rep ops {} [] sc ⟨rfl, rfl, rfl, rfl, by simp⟩ hn hok
  exact ⟨n, h1, h2.getURI, h2.getPrefix⟩

/-- **C24** (partial): what the calls return. The end of an element returns the declarations of that element, and a declaration tells
whether the element had already declared the prefix. Missing: as for `C24_scoping_partial`. -/
theorem C24_results_partial (ops : List Op) (s : List (String × String)) (sc : Scopes) (hn : after [] ops = some (s :: sc))
    (hok : AllCanDeclare {} [] ops) :
    ∃ n, run {} ops = some n ∧ (popContext n).map (·.2) = some s.reverse ∧
      ∀ pre uri, canDeclare n (s :: sc) (.declare pre uri) →
        (declarePrefix n pre uri).map (·.2) = some (s.any (fun p => p.1 == pre)) := by
  obtain ⟨n, h1, h⟩ := XMLNamespaces.run_rep ops {} [] (s :: sc) ⟨rfl, rfl, rfl, rfl, by simp⟩ hn hok
  have ht := XMLNamespaces.ctx_top h
  have hle := h.le
  have hsz := h.size
  simp only [List.flatten_cons, List.length_append] at hsz
  refine ⟨n, h1, ?_, ?_⟩
  · simp only [popContext, ht]
    rw [if_pos (by omega)]
    simp only [Option.map_some, h.data, flatOf, List.flatten_cons, List.reverse_append]
    rw [List.drop_left' (by simp)]
  · intro pre uri hcan
    have hsplit : n.namespaces = sc.flatten.reverse ++ s.reverse ++ n.namespaces.drop n.namespacesSize := by
      conv => lhs; rw [← List.take_append_drop n.namespacesSize n.namespaces, h.data]
      simp [flatOf]
    have hfind : findPrefix n.namespaces sc.flatten.length pre n.namespacesSize =
        some ((s.findIdx? (fun p => p.1 == pre)).map fun k => sc.flatten.length + (s.length - 1 - k)) := by
      have := findPrefix_spec sc.flatten.reverse s (n.namespaces.drop n.namespacesSize) pre
      rw [← hsplit] at this
      simp only [List.length_reverse] at this
      rw [hsz, Nat.add_comm s.length, this]
    simp only [declarePrefix, ht, hfind]
    cases hf : s.findIdx? (fun p => p.1 == pre) with
    | some k =>
      have hlt : k < s.length := (List.findIdx?_eq_some_iff_getElem.1 hf).1
      have hany : s.any (fun p => p.1 == pre) = true := by
        have := (List.findIdx?_eq_some_iff_getElem.1 hf).2.1
        exact List.any_eq_true.2 ⟨s[k], List.getElem_mem hlt, this⟩
      simp [hany]
    | none =>
      have hany : s.any (fun p => p.1 == pre) = false := by
        rw [List.any_eq_false]
        intro p hp
        have := List.findIdx?_eq_none_iff.1 hf p hp
        simpa using this
      have hroom : n.namespacesSize = n.namespaces.length := by
        rcases hcan with hcan | ⟨t, ht', hcan⟩
        · exact hcan
        · simp only [List.head?_cons, Option.mem_def, Option.some.injEq] at ht'
          subst ht'
          rw [hany] at hcan; cases hcan
      rw [hany]
      simp only [Option.map_none]
      rw [if_pos (by omega)]
      rfl

example : ((run {} [.push, .declare "z" "0", .push, .declare "a" "2", .declare "b" "3", .declare "a" "4"]).bind popContext).map (·.2) =
    some [("a", "4"), ("b", "3")] := by decide

/-- A simple sufficient condition: every declaration comes before the first end of an element which has declarations, that is, no
declaration follows a pop. -/
theorem C24_before_pop_partial (ops1 ops2 : List Op) (sc : Scopes) (hn : after [] (ops1 ++ ops2) = some sc) (h1 : Op.pop ∉ ops1)
    (h2 : ∀ pre uri, Op.declare pre uri ∉ ops2) :
    ∃ n, run {} (ops1 ++ ops2) = some n ∧ (∀ pre, getURI n pre = uriOf sc pre) ∧ ∀ uri, getPrefix n uri = prefixOf sc uri := by
  apply C24_scoping_partial _ _ hn
  have key2 : ∀ (ops : List Op) (n : St) (sc : Scopes), (∀ pre uri, Op.declare pre uri ∉ ops) → AllCanDeclare n sc ops := by
    intro ops
    induction ops with
    | nil => intros; trivial
    | cons op ops ih =>
      intro n sc h
      refine ⟨?_, fun n' sc' _ _ => ih n' sc' (fun p u hm => h p u (by simp [hm]))⟩
      cases op with
      | declare p u => exact absurd (by simp) (h p u)
      | _ => trivial
  have key1 : ∀ (ops : List Op) (n : St) (sc : Scopes), Op.pop ∉ ops → n.namespacesSize = n.namespaces.length →
      AllCanDeclare n sc (ops ++ ops2) := by
    intro ops
    induction ops with
    | nil => intro n sc _ _; exact key2 ops2 n sc h2
    | cons op ops ih =>
      intro n sc hp hsz
      refine ⟨?_, ?_⟩
      · cases op with
        | declare p u => exact .inl hsz
        | _ => trivial
      · intro n' sc' hst _
        refine ih n' sc' (fun hm => hp (by simp [hm])) ?_
        cases op with
        | pop => exact absurd (by simp) hp
        | push => simp only [XMLNamespaces.step, pushContext] at hst; grind
        | declare p u =>
          simp only [XMLNamespaces.step, declarePrefix] at hst
          split at hst
          · simp at hst
          · split at hst <;> simp at hst <;> grind
  exact key1 ops1 {} [] h1 rfl

/-- Non-vacuity: nested elements which shadow a prefix. -/
example : ((run {} [.push, .declare "a" "1", .push, .declare "a" "2", .declare "b" "3", .declare "a" "4", .pop]).map
    fun n => (getURI n "a", getURI n "b")) = some (some "1", none) := by decide

/-- **C24 violated (1)**: a declaration in the second of two sibling elements panics (`<r><x xmlns:a=".."/><y xmlns:b=".."/></r>`). -/
theorem C24_sibling_violated :
    after [] [.push, .push, .declare "a" "1", .pop, .push, .declare "b" "2"] = some [[("b", "2")], []] ∧
    run {} [.push, .push, .declare "a" "1", .pop, .push, .declare "b" "2"] = none := by decide

/-- **C24 violated (2)**: with two declarations in the first sibling there is no panic, but the new prefix is not found and the old one, which
is out of scope, still is. -/
theorem C24_stale_violated :
    ((run {} [.push, .push, .declare "a" "1", .declare "c" "3", .pop, .push, .declare "b" "2"]).map
      fun n => (getURI n "a", getURI n "b")) = some (some "1", none) := by decide

/-- **C24, finding**: getPrefix may answer a prefix which an inner element has bound to another URI. -/
theorem C24_shadowed_prefix_violated :
    ((run {} [.push, .declare "a" "1", .push, .declare "a" "2"]).map
      fun n => (getPrefix n "1", getURI n "a")) = some (some "a", some "2") := by decide

end Verif.Props
