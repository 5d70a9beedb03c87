import Verif.Proofs.URIResolve
import Verif.Proofs.URIDecode

/-!
Properties C16, C17, C18, C47 and C50: URIs.
-/

namespace Verif.URI
open Verif.Spec.Path Verif.Spec.URI

/-! ## C16 -/

/-- The path algorithm (in place buffer of runes) computes the segment level normal form `normal` of `Spec/URI.lean`, without panic and
without an endless loop. Missing for the full property: paths containing the rune 0, see `C16_nul_violated`. -/
theorem C16_normal_form_partial (path : List Char) (h : nul ∉ path) : normalize path = some (normal path) := normalize_eq path h

example : normalize "a/./b/../..//c:d/".toList = some "./c:d/".toList := by decide
example : normalize "/../a/b/../c".toList = some "/../a/c".toList := by decide

/-- What the normal form looks like: the segments are those of the path with "." dropped and "x/.." cancelled; ".." remains
only at the front; a "." is put in front only of a relative path whose first segment has a colon; no empty segments; absolute
paths stay absolute; a second normalisation changes nothing. -/
theorem C16_segments_partial (path : List Char) (h : nul ∉ path) :
    ∃ r, normalize path = some r ∧ isAbs r = isAbs path ∧
      (∃ ups names, resolve (segments path) = ups ++ names ∧ (∀ s ∈ ups, s = dotdot) ∧ (∀ s ∈ names, s ≠ dot ∧ s ≠ dotdot) ∧
        (segments r = ups ++ names ∨
          (isAbs path = false ∧ segments r = dot :: (ups ++ names) ∧ ∃ s ∈ (ups ++ names).head?, ':' ∈ s))) ∧
      (∀ a b, r ≠ a ++ '/' :: '/' :: b) ∧
      normalize r = some r := by
  refine ⟨normal path, normalize_eq path h, ?_, ?_, normal_no_double path h, ?_⟩
  · rw [isAbs_parse, isAbs_parse, parse_normal path h]
    simp only
    congr 1
    simp only [eq_iff_iff]
    omega
  · have hc : Clean id (resolve (segments path)) := by
      have := clean_resolve id [] (segments path) (Clean.nil _)
      exact this
    obtain ⟨ups, names, he, hu, hn⟩ := hc
    refine ⟨ups, names, he, hu, hn, ?_⟩
    have hseg : segments (normal path) =
        (if needsGuard (parse path).1 (parse path).2 then [dot] else []) ++ (ups ++ names) := by
      rw [← he, resolve_segments]
      simp only [segments, parse_normal path h, List.map_append, List.map_map]
      congr 1
      split <;> rfl
    by_cases hg : needsGuard (parse path).1 (parse path).2 = true
    · right
      rw [if_pos hg] at hseg
      rw [← he, resolve_segments, isAbs_parse]
      unfold needsGuard at hg
      split at hg
      · next x xs hx =>
        have hg := of_decide_eq_true hg
        refine ⟨by simp [hg.1], ?_, ?_⟩
        · rw [hseg, ← he, resolve_segments, List.singleton_append]
        · rw [hx]
          exact ⟨_, by simp, hg.2.2⟩
      · simp at hg
    · left
      rw [if_neg hg] at hseg
      exact hseg
  · rw [normalize_eq _ (nul_notMem_normal path h), normal_idem path h]

/-- Whole URIs: only the path changes, it becomes the normal form, and a second Normalize returns the same URI. -/
theorem C16_uri_partial (u : URI) (h : nul ∉ u.path) :
    ∃ v, normalizeURI u = some v ∧ v.path = normal u.path ∧ v.scheme = u.scheme ∧ v.username = u.username ∧ v.password = u.password ∧
      v.host = u.host ∧ v.port = u.port ∧ v.query = u.query ∧ v.fragment = u.fragment ∧
      (u.raw = rawOf u.toComps → v.raw = rawOf v.toComps) ∧ normalizeURI v = some v := by
  unfold normalizeURI
  by_cases ho : isOpaque u = true
  · have hp : u.path = [] := by simpa [isOpaque] using ho
    rw [if_pos ho]
    refine ⟨u, rfl, ?_, rfl, rfl, rfl, rfl, rfl, rfl, rfl, fun h => h, by rw [if_pos ho]⟩
    rw [hp]; rfl
  · rw [if_neg ho, normalize_eq _ h]
    simp only
    by_cases he : normal u.path = u.path
    · rw [if_pos he]
      exact ⟨u, rfl, he.symm, rfl, rfl, rfl, rfl, rfl, rfl, rfl, fun h => h, by rw [if_neg ho, normalize_eq _ h]; simp [he]⟩
    · rw [if_neg he]
      refine ⟨_, rfl, rfl, rfl, rfl, rfl, rfl, rfl, rfl, rfl, fun _ => rfl, ?_⟩
      split
      · rfl
      · simp only [mk]
        rw [normalize_eq _ (nul_notMem_normal _ h), normal_idem _ h]
        simp

example : (normalizeURI (mk ⟨"http".toList, [], [], "h".toList, [], "/a/../b".toList, "q".toList, []⟩)).map (·.raw) =
    some "http://h/b?q".toList := by decide

/-- With a rune 0 in the path, normalisation loses text: the path `a\0b/.` becomes `a/`. -/
theorem C16_nul_violated : normalize ['a', nul, 'b', '/', '.'] = some ['a', '/'] ∧
    normal ['a', nul, 'b', '/', '.'] = ['a', nul, 'b', '/'] := by decide

/-! ## C17 -/

/-- Resolving the relativised URI gives back the location, for URIs with a scheme and with absolute paths.
Missing for the full property (each is refuted below): URIs without scheme, targets equal to the base or to its directory, bases
ending in a dot segment, and URIs on which Authority fails or does not tell authorities apart. -/
theorem C17_resolve_relativize_partial (base tgt : URI) (a b : List Char)
    (hsch : tgt.scheme ≠ [])
    (hbp : isAbs base.path = true) (htp : isAbs tgt.path = true) (hbn : nul ∉ base.path) (htn : nul ∉ tgt.path)
    (hlast : ∀ l, base.path = dirOf base.path ++ l → l ≠ dot ∧ l ≠ dotdot)
    (hne : normal tgt.path ≠ normal base.path) (hnd : normal tgt.path ≠ normal (dirOf base.path))
    (ha : authority base = some a) (hb : authority tgt = some b)
    (hab : a = b → base.username = tgt.username ∧ base.password = tgt.password ∧ base.host = tgt.host ∧ base.port = tgt.port) :
    ∃ rel v, relativizeURI base tgt = some rel ∧ resolveURI base rel = some v ∧ SameLocation v tgt := by
  have hob : isOpaque base = false := by
    cases hp : base.path with
    | nil => rw [hp] at hbp; simp [isAbs] at hbp
    | cons c cs => simp [isOpaque, hp]
  have hot : isOpaque tgt = false := by
    cases hp : tgt.path with
    | nil => rw [hp] at htp; simp [isAbs] at htp
    | cons c cs => simp [isOpaque, hp]
  have hself : ∃ v, resolveURI base tgt = some v ∧ SameLocation v tgt := by
    refine ⟨tgt, ?_, rfl, rfl, rfl, rfl, rfl, rfl, rfl, rfl⟩
    unfold resolveURI
    rw [hob, hot, hb]
    simp [hsch]
  obtain ⟨w, hw, hloc⟩ := hself
  by_cases hs : base.scheme = tgt.scheme
  rotate_left
  · exact ⟨tgt, w, by simp [relativizeURI, hob, hot, hs], hw, hloc⟩
  by_cases hauth : a = b
  rotate_left
  · exact ⟨tgt, w, by simp [relativizeURI, hob, hot, hs, ha, hb, hauth], hw, hloc⟩
  obtain ⟨k, ts, hd, hk, htr, hnd', hdir⟩ := base_dir base.path hbp hbn hlast
  have hrelu : relativizeURI base tgt =
      (if ('/' :: flat (red ts)).isPrefixOf (normal tgt.path) then
        some (mk ⟨[], [], [], [], [], (normal tgt.path).drop ('/' :: flat (red ts)).length, tgt.query, tgt.fragment⟩)
      else some tgt) := by
    unfold relativizeURI
    rw [hob, hot, ha, hb, normalize_eq _ hbn, normalize_eq _ htn]
    simp only [hs, hauth, Bool.or_self, ne_eq, not_true_eq_false, if_false, if_neg (Ne.symm hne), hdir, Bool.false_eq_true]
  by_cases hpre : ('/' :: flat (red ts)).isPrefixOf (normal tgt.path) = true
  rotate_left
  · exact ⟨tgt, w, by rw [hrelu, if_neg hpre], hw, hloc⟩
  rw [if_pos hpre] at hrelu
  obtain ⟨rel, hrel⟩ := List.isPrefixOf_iff_prefix.1 hpre
  have hdrop : (normal tgt.path).drop ('/' :: flat (red ts)).length = rel := by rw [← hrel, List.drop_left]
  rw [hdrop] at hrelu
  have hrel0 : rel ≠ [] := by
    rintro rfl
    rw [List.append_nil] at hrel
    exact hnd (by rw [normal_abs _ _ _ hd hk, hrel])
  obtain ⟨hhead, hnorm, hnn⟩ := resolve_rest _ rel tgt.path k ts hd hk htr hnd' htn htp hrel0 hrel.symm
  obtain ⟨hu, hpw, hh, hpt⟩ := hab hauth
  refine ⟨_, mk { base.toComps with path := normal tgt.path, query := tgt.query, fragment := tgt.fragment }, hrelu, ?_, ?_⟩
  · have hro : isOpaque (mk ⟨[], [], [], [], [], rel, tgt.query, tgt.fragment⟩) = false := by
      cases rel with
      | nil => exact absurd rfl hrel0
      | cons c cs => rfl
    unfold resolveURI
    rw [hro, hob]
    have hau : authority (mk ⟨[], [], [], [], [], rel, tgt.query, tgt.fragment⟩) = some [] := by simp [authority, mk]
    rw [hau]
    simp only [mk, Bool.or_self, Bool.false_eq_true, if_false, hrel0, false_and, and_false, ne_eq, not_true_eq_false, if_true,
      if_neg hhead, resolvePath, normalize_eq _ hnn, hnorm]
  · exact ⟨hs, hu, hpw, hh, hpt, normal_idem _ htn, rfl, rfl⟩

/-- Shorthand for the witnesses: a URI with scheme, host, port and path. -/
def wit (scheme host port path : String) : URI := mk ⟨scheme.toList, [], [], host.toList, port.toList, path.toList, [], []⟩

def locationAfter (base tgt : URI) : Option (List Char) :=
  ((relativizeURI base tgt).bind (resolveURI base)).map (·.raw)

example : locationAfter (wit "http" "x" "" "/a/b/c") (wit "http" "x" "" "/a/b/d/../e") = some "http://x/a/b/e".toList := by decide

/-- Target equal to the base: the relative URI is empty, hence opaque, and Resolve returns it unchanged. -/
theorem C17_same_path_violated : locationAfter (wit "http" "x" "" "/a/b") (wit "http" "x" "" "/a/b") = some [] := by decide

/-- Target equal to the directory of the base. -/
theorem C17_directory_violated : locationAfter (wit "http" "x" "" "/a/b") (wit "http" "x" "" "/a/") = some [] := by decide

/-- Base ending with a dot segment: `/a/b/..` is the directory `/a/`, the target `/a/c` comes back as `/a/b/c`. -/
theorem C17_dot_base_violated :
    locationAfter (wit "http" "x" "" "/a/b/..") (wit "http" "x" "" "/a/c") = some "http://x/a/b/c".toList := by decide

/-- Relative URIs: the target `c/d` comes back as `a/c/d`. -/
theorem C17_relative_violated : locationAfter (wit "" "" "" "a/b") (wit "" "" "" "c/d") = some "a/c/d".toList := by decide

/-- Two ports are not told apart: the target on port 81 comes back on port 80. -/
theorem C17_port_violated : locationAfter (wit "http" "t" "80" "/a/b") (wit "http" "t" "81" "/a/c") = some "http://t:80/a/c".toList := by
  decide

/-! ## C18 -/

/-- Every tuple given to NewURIFromComponents in the history is the reading of its own text. -/
def Honest (net : List Char → Option Comps) (h : List CacheOp) : Prop := ∀ c, CacheOp.make c ∈ h → net (rawOf c) = some c

def CacheInv (net : List Char → Option Comps) (m : Cache) : Prop := ∀ raw u, m raw = some u → u.raw = raw ∧ net raw = some u.toComps

theorem cacheInv_step (net : List Char → Option Comps) (m : Cache) (op : CacheOp) (hm : CacheInv net m)
    (hop : ∀ c, op = .make c → net (rawOf c) = some c) : CacheInv net (cacheStep net m op).1 := by
  cases op with
  | parse raw =>
    simp only [cacheStep]
    split
    · exact hm
    · split
      · exact hm
      · next c hc =>
        intro r u hu
        simp only [store] at hu
        split at hu
        · next hr => subst hr; simp only [Option.some.injEq] at hu; subst hu; exact ⟨rfl, hc⟩
        · exact hm r u hu
  | make c =>
    simp only [cacheStep]
    split
    · exact hm
    · intro r u hu
      simp only [store] at hu
      split at hu
      · next hr => subst hr; simp only [Option.some.injEq] at hu; subst hu; exact ⟨rfl, hop c rfl⟩
      · exact hm r u hu
  | evict raw =>
    intro r u hu
    simp only [cacheStep] at hu
    split at hu
    · simp at hu
    · exact hm r u hu

theorem cacheInv_run (net : List Char → Option Comps) (m : Cache) (h : List CacheOp) (hm : CacheInv net m) (hh : Honest net h) :
    CacheInv net (cacheRun net m h) := by
  induction h generalizing m with
  | nil => exact hm
  | cons op h ih =>
    apply ih
    · exact cacheInv_step net m op hm (fun c hc => hh c (by rw [hc]; simp))
    · intro c hc; exact hh c (List.mem_cons_of_mem _ hc)

/-- Whatever URIs were parsed, built and collected before, ParseURI returns the components read from the text and
NewURIFromComponents the components given, provided that the tuples given to NewURIFromComponents are the reading of their own text.
Missing for the full property: other tuples, see `C18_made_violated`. -/
theorem C18_history_partial (net : List Char → Option Comps) (h : List CacheOp) (hh : Honest net h) :
    (∀ raw, (cacheStep net (cacheRun net (fun _ => none) h) (.parse raw)).2 = (net raw).map fun c => { c with raw := raw }) ∧
    (∀ c, net (rawOf c) = some c → (cacheStep net (cacheRun net (fun _ => none) h) (.make c)).2 = some (mk c)) := by
  have hi := cacheInv_run net (fun _ => none) h (by intro _ _ h; simp at h) hh
  refine ⟨fun raw => ?_, fun c hc => ?_⟩
  · simp only [cacheStep]
    split
    · next u hu =>
      obtain ⟨h1, h2⟩ := hi raw u hu
      rw [h2]; subst h1; rfl
    · split <;> simp_all
  · simp only [cacheStep]
    split
    · next u hu =>
      obtain ⟨h1, h2⟩ := hi _ u hu
      have hcu : c = u.toComps := by rw [hc] at h2; exact Option.some.inj h2
      simp only [Option.some.injEq]
      obtain ⟨uc, ur⟩ := u
      simp only at hcu h1
      subst hcu h1; rfl
    · rfl

/-- Without NewURIFromComponents in the history no condition is needed. -/
theorem C18_parse_only_partial (net : List Char → Option Comps) (h : List CacheOp) (hp : ∀ c, CacheOp.make c ∉ h) (raw : List Char) :
    (cacheStep net (cacheRun net (fun _ => none) h) (.parse raw)).2 = (net raw).map fun c => { c with raw := raw } :=
  (C18_history_partial net h (fun c hc => absurd hc (hp c))).1 raw

def exampleComps : Comps :=
  ⟨"http".toList, "bob".toList, "p:w".toList, "x.org".toList, "80".toList, "/a:b//c".toList, "k=v?".toList, "//@0#".toList⟩

example : Canonical exampleComps := by constructor <;> decide
example : rawOf exampleComps = "http://bob:p:w@x.org:80/a:b//c?k=v?#//@0#".toList ∧ decode (rawOf exampleComps) = exampleComps := by decide

/-- A path made with a colon is later returned for the text of a URI with a scheme: the result of ParseURI depends on history. -/
theorem C18_made_violated :
    (cacheStep (fun s => some (decode s)) (fun _ => none) (.parse "b:c".toList)).2.map (·.scheme) = some "b".toList ∧
    (cacheStep (fun s => some (decode s))
      (cacheRun (fun s => some (decode s)) (fun _ => none) [.make ⟨[], [], [], [], [], "b:c".toList, [], []⟩])
      (.parse "b:c".toList)).2.map (·.scheme) = some [] := by decide

/-! ## C47 -/

theorem replacePrefix_iff (u old new v : URI) : replacePrefix u old new = some v ↔ Rule old new u v := by
  unfold replacePrefix Rule
  constructor
  · intro h
    split at h
    · simp at h
    · next hc =>
      simp only [not_or, Decidable.not_not] at hc
      obtain ⟨h1, h2, h3, h4, h5⟩ := hc
      split at h
      · next hp =>
        obtain ⟨rest, hrest⟩ := List.isPrefixOf_iff_prefix.1 hp
        refine ⟨h1, h2, h3, h4, h5, rest, hrest.symm, ?_⟩
        simp only [Option.some.injEq] at h
        rw [← h, ← hrest, List.drop_left]
      · simp at h
  · rintro ⟨h1, h2, h3, h4, h5, rest, hr, rfl⟩
    rw [if_neg (by simp [h1, h2, h3, h4, h5])]
    rw [if_pos (List.isPrefixOf_iff_prefix.2 ⟨rest, hr.symm⟩)]
    rw [hr, List.drop_left]

theorem getURIFromMap_spec (m : List (URI × URI)) (u : URI) :
    (getURIFromMap m u = u ∧ ∀ p ∈ m, ∀ v, ¬ Rule p.1 p.2 u v) ∨ ∃ p ∈ m, Rule p.1 p.2 u (getURIFromMap m u) := by
  induction m with
  | nil => left; exact ⟨rfl, by simp⟩
  | cons p m ih =>
    obtain ⟨old, new⟩ := p
    simp only [getURIFromMap]
    cases hr : replacePrefix u old new with
    | some v => right; exact ⟨(old, new), by simp, (replacePrefix_iff ..).1 hr⟩
    | none =>
      simp only
      rcases ih with ⟨h1, h2⟩ | ⟨p, hp, h⟩
      · left
        refine ⟨h1, ?_⟩
        intro p hp v hv
        rcases List.mem_cons.1 hp with rfl | hp
        · have := (replacePrefix_iff ..).2 hv; rw [hr] at this; simp at this
        · exact h2 p hp v hv
      · right; exact ⟨p, by simp [hp], h⟩

/-- What Normalize returns, if it returns: it is reached by applying rules of the map, and it is final: no rule applies to it, or
(last step) a rule was applied which did not change the text. The order in which the map is read may differ at each step.
Missing for the full property: termination (`C47_loop_violated`), and the host of the new prefix (`C47_host_violated`). -/
theorem C47_result_partial (m : List (URI × URI)) (order : Nat → List (URI × URI)) (ho : ∀ i p, p ∈ order i ↔ p ∈ m) (fuel i : Nat)
    (u v : URI) (h : convert order fuel i u = some v) :
    Rewrites m u v ∧ ((∀ p ∈ m, ∀ w, ¬ Rule p.1 p.2 v w) ∨ ∃ w, ∃ p ∈ m, Rewrites m u w ∧ Rule p.1 p.2 w v ∧ w.raw = v.raw) := by
  induction fuel generalizing i u with
  | zero => simp [convert] at h
  | succ fuel ih =>
    rw [convert] at h
    have hg := getURIFromMap_spec (order i) u
    split at h
    · next he =>
      simp only [equals, beq_iff_eq] at he
      simp only [Option.some.injEq] at h
      subst h
      rcases hg with ⟨h1, h2⟩ | ⟨p, hp, h2⟩
      · rw [h1]
        exact ⟨.refl u, .inl fun p hp => h2 p ((ho i p).2 hp)⟩
      · exact ⟨.step ((ho i p).1 hp) h2 (.refl _), .inr ⟨u, p, (ho i p).1 hp, .refl u, h2, he⟩⟩
    · next he =>
      obtain ⟨h1, h2⟩ := ih _ _ h
      rcases hg with ⟨hs, _⟩ | ⟨p, hp, hr⟩
      · rw [hs] at he; simp [equals] at he
      · refine ⟨.step ((ho i p).1 hp) hr h1, ?_⟩
        rcases h2 with h2 | ⟨w, q, hq, hw, hr2, hraw⟩
        · exact .inl h2
        · exact .inr ⟨w, q, hq, .step ((ho i p).1 hp) hr hw, hr2, hraw⟩

/-- Termination by a measure which rules decrease. -/
theorem convert_terminates (m : List (URI × URI)) (order : Nat → List (URI × URI)) (ho : ∀ i p, p ∈ order i ↔ p ∈ m)
    (μ : URI → Nat) (hμ : ∀ p ∈ m, ∀ u v, Rule p.1 p.2 u v → μ v < μ u) (n : Nat) (i : Nat) (u : URI) (hn : μ u < n) :
    (convert order n i u).isSome := by
  induction n generalizing i u with
  | zero => omega
  | succ n ih =>
    rw [convert]
    split
    · rfl
    · next he =>
      rcases getURIFromMap_spec (order i) u with ⟨hs, _⟩ | ⟨p, hp, hr⟩
      · rw [hs] at he; simp [equals] at he
      · have := hμ p ((ho i p).1 hp) u _ hr
        exact ih _ _ (by omega)

/-- Maps whose rules shorten the path: Normalize terminates. -/
theorem C47_shortening_partial (m : List (URI × URI)) (order : Nat → List (URI × URI)) (ho : ∀ i p, p ∈ order i ↔ p ∈ m)
    (hm : ∀ p ∈ m, p.2.path.length < p.1.path.length) (u : URI) : ∃ fuel v, convert order fuel 0 u = some v := by
  have := convert_terminates m order ho (fun u => u.path.length) (by
    rintro p hp u v ⟨_, _, _, _, _, rest, hr, rfl⟩
    have := hm p hp
    simp only [mk, List.length_append, hr]; omega) (u.path.length + 1) 0 u (by omega)
  obtain ⟨v, hv⟩ := Option.isSome_iff_exists.1 this
  exact ⟨_, v, hv⟩

/-- Maps from some schemes to other schemes (such as `platform:` to `file:`): Normalize terminates. -/
theorem C47_schemes_partial (m : List (URI × URI)) (order : Nat → List (URI × URI)) (ho : ∀ i p, p ∈ order i ↔ p ∈ m)
    (hm : ∀ p ∈ m, ∀ q ∈ m, p.2.scheme ≠ q.1.scheme) (u : URI) : ∃ fuel v, convert order fuel 0 u = some v := by
  have := convert_terminates m order ho (fun u => (m.any fun q => u.scheme == q.1.scheme).toNat) (by
    rintro p hp u v ⟨hs, _, _, _, _, rest, hr, rfl⟩
    have h1 : (m.any fun q => u.scheme == q.1.scheme) = true := List.any_eq_true.2 ⟨p, hp, by simp [hs]⟩
    have h2 : (m.any fun q => p.2.scheme == q.1.scheme) = false := by
      rw [List.any_eq_false]; intro q hq; simpa using hm p hp q hq
    simp only [h1, mk, h2]; decide) 2 0 u (by cases (m.any fun q => u.scheme == q.1.scheme) <;> decide)
  obtain ⟨v, hv⟩ := Option.isSome_iff_exists.1 this
  exact ⟨_, v, hv⟩

example : (convert (fun _ => [(wit "p" "" "" "/x/", wit "f" "" "" "/y/z/")]) 3 0 (wit "p" "" "" "/x/a")).map (·.raw) =
    some "f:/y/z/a".toList := by decide

/-- A map with the single rule `p` to `pp`: Normalize of `p` never returns. -/
theorem C47_loop_violated (fuel : Nat) : ∀ n i, convert (fun _ => [(wit "" "" "" "p", wit "" "" "" "pp")]) fuel i
    (mk ⟨[], [], [], [], [], List.replicate (n + 1) 'p', [], []⟩) = none := by
  induction fuel with
  | zero => intro n i; rfl
  | succ fuel ih =>
    intro n i
    rw [convert]
    have hg : getURIFromMap [(wit "" "" "" "p", wit "" "" "" "pp")] (mk ⟨[], [], [], [], [], List.replicate (n + 1) 'p', [], []⟩) =
        mk ⟨[], [], [], [], [], List.replicate (n + 2) 'p', [], []⟩ := by
      simp [getURIFromMap, replacePrefix, wit, mk, List.replicate_succ]
    simp only [hg]
    rw [if_neg, ih (n + 1)]
    simp only [equals, mk, rawOf, beq_iff_eq]
    intro h
    have := congrArg List.length h
    simp at this

/-- The host of the replacement is ignored: mapping `http://a/x` to `http://b/y` leads to `http://a/y`. -/
theorem C47_host_violated :
    (replacePrefix (wit "http" "a" "" "/x/f") (wit "http" "a" "" "/x") (wit "http" "b" "" "/y")).map (·.raw) =
      some "http://a/y/f".toList := by decide

/-! ## C50 -/

/-- The text before the authority. -/
def beforeAuthority (c : Comps) : List Char := (if c.scheme ≠ [] then c.scheme ++ [':'] else []) ++ ['/', '/']

/-- Authority returns `user:password@host:port` when the host and the user do not occur earlier in the text.
Missing for the full property: see `C50_panic_violated` and `C50_wrong_violated`; and a password without user. -/
theorem C50_authority_partial (c : Comps) (hh : c.host ≠ []) (hpw : c.username = [] → c.password = [])
    (hu : c.username ≠ [] → ∀ a b, rawOf c = a ++ c.username ++ b → (beforeAuthority c).length ≤ a.length)
    (hf : ∀ a b, rawOf c = a ++ c.host ++ b →
      (beforeAuthority c).length + (if c.username ≠ [] then c.username.length + (if c.password ≠ [] then 1 + c.password.length else 0) + 1 else 0)
        ≤ a.length) :
    authority (mk c) = some (authorityText c) := by
  have hany : c.username ≠ [] ∨ c.password ≠ [] ∨ c.host ≠ [] ∨ c.port ≠ [] := .inr (.inr (.inl hh))
  -- the parts of the text
  obtain ⟨info, hinfo⟩ : ∃ info, info =
    (if c.username ≠ [] then c.username ++ (if c.password ≠ [] then ':' :: c.password else []) ++ ['@'] else []) := ⟨_, rfl⟩
  obtain ⟨port, hport⟩ : ∃ port, port = (if c.port ≠ [] then ':' :: c.port else []) := ⟨_, rfl⟩
  obtain ⟨post, hpost⟩ : ∃ post, post = c.path ++ (if c.query ≠ [] then '?' :: c.query else []) ++
    (if c.fragment ≠ [] then '#' :: c.fragment else []) := ⟨_, rfl⟩
  have htext : authorityText c = info ++ c.host ++ port := by
    rw [hinfo, hport, authorityText]
    by_cases h0 : c.username = []
    · simp [h0, hpw h0]
    · simp [h0]
  have hraw : rawOf c = beforeAuthority c ++ (info ++ c.host ++ port) ++ post := by
    rw [rawOf_eq, if_pos hany, htext, hpost, beforeAuthority]; simp
  have hil : info.length =
      (if c.username ≠ [] then c.username.length + (if c.password ≠ [] then 1 + c.password.length else 0) + 1 else 0) := by
    rw [hinfo]
    by_cases h0 : c.username = []
    · simp [h0]
    · by_cases h1 : c.password = []
      · simp [h0, h1]
      · simp [h0, h1]; omega
  have hhost : indexOf c.host (rawOf c) = ((beforeAuthority c ++ info).length : Int) := by
    have he : rawOf c = (beforeAuthority c ++ info) ++ c.host ++ (port ++ post) := by rw [hraw]; simp
    rw [he]
    apply indexOf_first
    intro a' b' hab
    rw [List.length_append, hil]
    exact hf a' b' (by rw [he, hab])
  have hfirst : (if c.username ≠ [] then indexOf c.username (rawOf c) else indexOf c.host (rawOf c)) = ((beforeAuthority c).length : Int) := by
    by_cases h0 : c.username = []
    · have hi : info = [] := by rw [hinfo]; simp [h0]
      rw [if_neg (by simp [h0]), hhost, hi]; simp
    · rw [if_pos h0]
      obtain ⟨rest, hrest⟩ : ∃ rest, info = c.username ++ rest := by
        rw [hinfo, if_pos h0]
        exact ⟨(if c.password ≠ [] then ':' :: c.password else []) ++ ['@'], by simp⟩
      have he : rawOf c = beforeAuthority c ++ c.username ++ (rest ++ c.host ++ port ++ post) := by rw [hraw, hrest]; simp
      rw [he]
      apply indexOf_first
      intro a' b' hab
      exact hu h0 a' b' (by rw [he, hab])
  change (if c.host = [] then some [] else slice (rawOf c)
    (if c.username ≠ [] then indexOf c.username (rawOf c) else indexOf c.host (rawOf c))
    (indexOf c.host (rawOf c) + c.host.length + if c.port ≠ [] then (c.port.length : Int) + 1 else 0)) = _
  rw [if_neg hh, hfirst, hhost, htext]
  have hpl : (if c.port ≠ [] then (c.port.length : Int) + 1 else 0) = (port.length : Int) := by
    rw [hport]; by_cases h0 : c.port = [] <;> simp [h0]
  rw [hpl, slice]
  have hlast : ((beforeAuthority c ++ info).length : Int) + c.host.length + port.length =
      ((beforeAuthority c ++ (info ++ c.host ++ port)).length : Int) := by simp; omega
  rw [hlast, if_pos]
  · simp only [Int.toNat_natCast]
    rw [hraw, List.take_left, List.drop_left]
  · refine ⟨by omega, ?_, ?_⟩
    · simp; omega
    · rw [hraw]; simp; omega

example : authority (mk exampleComps) = some "bob:p:w@x.org:80".toList := by decide

/-- `http://bob@h/`: the host `h` is found in `http`, Authority slices backwards and panics. -/
theorem C50_panic_violated : authority (mk ⟨"http".toList, "bob".toList, [], "h".toList, [], "/".toList, [], []⟩) = none := by decide

/-- `http://t:80/`: Authority returns a piece of the scheme. -/
theorem C50_wrong_violated :
    authority (mk ⟨"http".toList, [], [], "t".toList, "80".toList, "/".toList, [], []⟩) = some "ttp:".toList := by decide

end Verif.URI
