import Verif.Proofs.BinaryErrors

/-!
# Binary documents that are damaged: the decoder comes to an end
-/

namespace Verif.BinaryErrors

open Binary

variable {D : Type} {α β : Type}

/-! ### Items are read from the front -/

/-- at least `m` items are read -/
def Eats (m : Nat) (p : Parser D α) : Prop := ∀ ts v rest, p ts = .ok (v, rest) → rest.length + m ≤ ts.length

theorem Det.shrinks {p : Parser D α} (h : Det p) : Eats 0 p := by
  intro ts v rest hp
  obtain ⟨u, rfl, _⟩ := h ts v rest hp
  simp

theorem Eats.bind {a b : Nat} {p : Parser D α} {f : α → Parser D β} (hp : Eats a p) (hf : ∀ v, Eats b (f v)) : Eats (a + b) (p >>= f) := by
  intro ts w rest h
  rw [bind_eq] at h
  cases hr : p ts with
  | ok vr =>
    obtain ⟨v, mid⟩ := vr
    rw [hr] at h
    have h1 := hp ts v mid hr
    have h2 := hf v mid w rest h
    omega
  | error => rw [hr] at h; simp at h
  | panic => rw [hr] at h; simp at h
  | hang => rw [hr] at h; simp at h

theorem Eats.int : Eats 1 (int : Parser D Int) := by
  intro ts v rest h
  unfold BinaryErrors.int at h
  split at h <;> simp at h
  obtain ⟨-, rfl⟩ := h
  simp

/-! ### No hang -/

/-- streams with fewer than `n` items do not need more calls -/
def NoHang (n : Nat) (p : Parser D α) : Prop := ∀ ts, ts.length < n → p ts ≠ .hang

theorem NoHang.bind {m n : Nat} {p : Parser D α} {f : α → Parser D β} (hp : NoHang n p) (he : Eats m p) (hf : ∀ v, NoHang (n - m) (f v)) :
    NoHang n (p >>= f) := by
  intro ts hts
  rw [bind_eq]
  have h0 := hp ts hts
  cases hr : p ts with
  | ok vr =>
    obtain ⟨v, rest⟩ := vr
    have := he ts v rest hr
    exact hf v rest (by omega)
  | error => simp
  | panic => simp
  | hang => exact absurd hr h0

theorem NoHang.bind0 {n : Nat} {p : Parser D α} {f : α → Parser D β} (hp : NoHang n p) (he : Det p) (hf : ∀ v, NoHang n (f v)) :
    NoHang n (p >>= f) := .bind hp he.shrinks hf

theorem NoHang.mono {m n : Nat} {p : Parser D α} (hp : NoHang n p) (h : m ≤ n) : NoHang m p := fun ts hts => hp ts (by omega)

theorem NoHang.pure {n : Nat} (v : α) : NoHang (D := D) n (Pure.pure v) := by intro ts _ h; exact absurd h (by intro h; cases h)
theorem NoHang.fail {n : Nat} : NoHang n (fail : Parser D α) := by intro ts _ h; cases h
theorem NoHang.crash {n : Nat} : NoHang n (crash : Parser D α) := by intro ts _ h; cases h
theorem NoHang.ite {n : Nat} {c : Prop} [Decidable c] {p q : Parser D α} (hp : NoHang n p) (hq : NoHang n q) : NoHang n (if c then p else q) := by
  split
  · exact hp
  · exact hq

theorem NoHang.int {n : Nat} : NoHang n (int : Parser D Int) := by intro ts _ h; unfold BinaryErrors.int at h; split at h <;> cases h
theorem NoHang.str {n : Nat} : NoHang n (str : Parser D String) := by intro ts _ h; unfold BinaryErrors.str at h; split at h <;> cases h
theorem NoHang.bytes {n : Nat} : NoHang n (bytes : Parser D (List Nat)) := by intro ts _ h; unfold BinaryErrors.bytes at h; split at h <;> cases h
theorem NoHang.anyID {n : Nat} : NoHang n (anyID : Parser D Nat) := by intro ts _ h; unfold BinaryErrors.anyID at h; split at h <;> cases h
theorem NoHang.value {n : Nat} (t : Basic) : NoHang n (value t : Parser D D) := by
  intro ts _ h
  unfold BinaryErrors.value at h
  split at h
  · split at h <;> cases h
  · cases h

theorem NoHang.index {n : Nat} {β : Type} (l : List β) (i : Int) : NoHang n (index l i : Parser D β) := by
  unfold BinaryErrors.index
  refine .ite .crash ?_
  split
  · exact .pure _
  · exact .crash

theorem NoHang.make {n : Nat} (lim : Limits) (size : Int) : NoHang n (make lim size : Parser D Nat) := .ite .crash (.pure _)

variable (env : Env D) (lim : Limits)

theorem NoHang.readURI {n : Nat} (d : Dec D) : NoHang n (readURI env d) := by
  unfold BinaryErrors.readURI
  exact .bind0 .int .int fun id => .ite (.pure _) (.ite (.bind0 .str .str fun s => .bind0 .str .str fun f => .pure _)
    (.bind0 (.index _ _) (.index _ _) fun p => .bind0 .str .str fun f => .pure _))

theorem NoHang.readPackage {n : Nat} (d : Dec D) : NoHang n (readPackage env d) := by
  unfold BinaryErrors.readPackage
  refine .bind0 .int .int fun id => .ite (.bind0 .str .str fun ns => .bind0 (.readURI env d) (.readURI env d) fun r => ?_)
    (.bind0 (.index _ _) (.index _ _) fun p => .pure _)
  obtain ⟨u, d⟩ := r
  simp only
  split
  · exact .fail
  · exact .pure _

theorem NoHang.readClass {n : Nat} (d : Dec D) : NoHang n (readClass env d) := by
  unfold BinaryErrors.readClass
  refine .bind0 (.readPackage env d) (.readPackage env d) fun r => ?_
  obtain ⟨⟨q, p⟩, d⟩ := r
  refine .bind0 .int .int fun id => .ite .crash ?_
  split
  · exact .pure _
  · refine .bind0 .str .str fun s => ?_
    split
    · exact .fail
    · exact .pure _

theorem NoHang.readObjects {n : Nat} {dec : Dec D → Parser D (Option Nat × Dec D)} (h : ∀ d, Det (dec d)) (hn : ∀ d, NoHang n (dec d)) (k : Nat) :
    ∀ d, NoHang n (readObjects dec k d) := by
  induction k with
  | zero => intro d; exact .pure _
  | succ k ih => intro d; exact .bind0 (hn d) (h d) fun r => .bind0 (ih r.2) (.readObjects h k r.2) fun s => .pure _

theorem NoHang.readStrings {n : Nat} (t k : Nat) : NoHang n (readStrings lim t k : Parser D (List String)) := by
  induction k with
  | zero => exact .pure _
  | succ k ih => exact .bind0 .str .str fun s => .ite .crash (.bind0 ih (.readStrings lim t k) fun l => .pure _)

theorem NoHang.readValue {n : Nat} {dec : Dec D → Parser D (Option Nat × Dec D)} (h : ∀ d, Det (dec d)) (hn : ∀ d, NoHang n (dec d)) (d : Dec D)
    (o i : Nat) (f : Feature) (list : Bool) : NoHang n (readValue env lim dec d o i f list) := by
  unfold BinaryErrors.readValue
  split
  iterate 6 exact .bind0 (hn d) (h d) fun r => .pure _
  iterate 4 exact .ite (.bind0 .int .int fun s => .bind0 (.make lim s) (.make lim s) fun k => .bind0 (.readObjects h hn k d) (.readObjects h k d) fun r => .pure _) .crash
  · exact .bind0 .str .str fun s => .ite (.pure _) .crash
  · exact .bind0 .int .int fun s => .bind0 (.readStrings lim _ _) (.readStrings lim _ _) fun l => .pure _
  · exact .bind0 .int .int fun id => .ite (.bind0 .str .str fun s => .ite (.pure _) .crash) (.bind0 (.index _ _) (.index _ _) fun s => .ite (.pure _) .crash)
  · exact .bind0 (.value _) (.value _) fun v => .pure _

theorem NoHang.readFeature {n : Nat} (d : Dec D) (q k c i : Nat) : NoHang n (readFeature env d q k c i) := by
  unfold BinaryErrors.readFeature
  split
  · exact .crash
  · split
    · exact .pure _
    · refine .bind0 .str .str fun s => ?_
      split
      · exact .fail
      · exact .pure _

theorem NoHang.readFeatures {m : Nat} {dec : Dec D → Parser D (Option Nat × Dec D)} (h : ∀ d, Det (dec d)) (hn : ∀ d, NoHang m (dec d))
    (o q k c n : Nat) (hm : n ≤ m) : ∀ id d, NoHang n (readFeatures env lim dec o q k c n id d) := by
  induction n with
  | zero => intro id d ts hts; simp at hts
  | succ n ih =>
    intro id d
    exact .ite (.pure _) (.ite .crash (.bind0 (.readFeature env d q k c _) (.readFeature env d q k c _) fun r =>
      .bind0 (.readValue env lim h (fun d => (hn d).mono hm) _ _ _ _ _) (.readValue env lim h _ _ _ _ _) fun d =>
        .bind .int .int fun id => ih (by omega) id d))

theorem NoHang.readProxy {n : Nat} (id : Int) (d : Dec D) : NoHang n (readProxy env id d) :=
  .ite (.bind0 (.readURI env d) (.readURI env d) fun r => .bind0 .int .int fun id => .pure _) (.pure _)

theorem NoHang.readID {n : Nat} (id : Int) : NoHang n (readID lim id : Parser D (Option Nat × Int)) :=
  .ite (.bind0 .anyID .anyID fun i => .ite (.bind0 .int .int fun id => .pure _) .fail) (.pure _)

theorem NoHang.readObject (n : Nat) : ∀ d, NoHang n (readObject env lim n d) := by
  induction n with
  | zero => intro d ts hts; simp at hts
  | succ n ih =>
    intro d
    exact .bind .int .int fun id => .ite (.pure _) (.ite (.bind0 (.readClass env d) (.readClass env d) fun r => .ite .crash
      (.bind0 .int .int fun id => .bind0 (.readProxy env id _) (.readProxy env id _) fun s => .bind0 (.readID lim _) (.readID lim _) fun t =>
        .bind0 (.readFeatures env lim (Det.readObject env lim n) ih _ _ _ _ _ (by simp) _ _)
          (.readFeatures env lim (Det.readObject env lim n) _ _ _ _ _ _ _) fun d => .pure _)) (.ite .crash (.pure _)))

theorem NoHang.readHeader {n : Nat} : NoHang n (readHeader : Parser D Unit) :=
  .bind0 .bytes .bytes fun s => .ite (.bind0 .int .int fun v => .ite (.pure _) .fail) .fail

theorem NoHang.readResource (n : Nat) : NoHang n (readResource env lim n) :=
  .bind0 .readHeader .readHeader fun _ => .bind0 .int .int fun s => .bind0 (.make lim s) (.make lim s) fun k =>
    .bind0 (.readObjects (Det.readObject env lim n) (NoHang.readObject env lim n) k {}) (.readObjects (Det.readObject env lim n) k {}) fun r => .pure _

theorem NoHang.readRoot (n : Nat) : NoHang n (readRoot env lim n) :=
  .bind0 .readHeader .readHeader fun _ => .bind0 (NoHang.readObject env lim n {}) (Det.readObject env lim n {}) fun r => .pure _

/-! ### More calls change nothing -/

def Le (p q : Parser D α) : Prop := ∀ ts, p ts ≠ .hang → q ts = p ts

theorem Le.refl (p : Parser D α) : Le p p := fun _ _ => rfl

theorem Le.stuck (p : Parser D α) : Le stuck p := fun _ h => absurd rfl h

theorem Le.bind {p q : Parser D α} {f g : α → Parser D β} (h : Le p q) (hf : ∀ v, Le (f v) (g v)) : Le (p >>= f) (q >>= g) := by
  intro ts hts
  rw [bind_eq] at hts
  rw [bind_eq, bind_eq]
  have : p ts ≠ .hang := by intro h; rw [h] at hts; exact hts rfl
  rw [h ts this]
  cases hr : p ts with
  | ok vr => rw [hr] at hts; exact hf _ _ hts
  | error => rfl
  | panic => rfl
  | hang => rfl

theorem Le.ite {c : Prop} [Decidable c] {p q p' q' : Parser D α} (hp : Le p p') (hq : Le q q') : Le (if c then p else q) (if c then p' else q') := by
  split
  · exact hp
  · exact hq

theorem Le.readObjects {dec dec' : Dec D → Parser D (Option Nat × Dec D)} (h : ∀ d, Le (dec d) (dec' d)) (k : Nat) :
    ∀ d, Le (readObjects dec k d) (readObjects dec' k d) := by
  induction k with
  | zero => intro d; exact .refl _
  | succ k ih => intro d; exact .bind (h d) fun r => .bind (ih r.2) fun s => .refl _

theorem Le.readValue {dec dec' : Dec D → Parser D (Option Nat × Dec D)} (h : ∀ d, Le (dec d) (dec' d)) (d : Dec D) (o i : Nat) (f : Feature)
    (list : Bool) : Le (readValue env lim dec d o i f list) (readValue env lim dec' d o i f list) := by
  unfold BinaryErrors.readValue
  split
  iterate 6 exact .bind (h d) fun r => .refl _
  iterate 4 exact .ite (.bind (.refl _) fun s => .bind (.refl _) fun k => .bind (.readObjects h k d) fun r => .refl _) (.refl _)
  all_goals exact .refl _

theorem Le.readFeatures {dec dec' : Dec D → Parser D (Option Nat × Dec D)} (h : ∀ d, Le (dec d) (dec' d)) (o q k c : Nat) : ∀ (n m : Nat), n ≤ m →
    ∀ id d, Le (readFeatures env lim dec o q k c n id d) (readFeatures env lim dec' o q k c m id d) := by
  intro n
  induction n with
  | zero => intro m _ id d; exact .stuck _
  | succ n ih =>
    intro m hm id d
    obtain ⟨m, rfl⟩ : ∃ m', m = m' + 1 := ⟨m - 1, by omega⟩
    exact .ite (.refl _) (.ite (.refl _) (.bind (.refl _) fun r => .bind (.readValue env lim h _ _ _ _ _) fun d => .bind (.refl _) fun id =>
      ih m (by omega) id d))

theorem Le.readObject : ∀ (n m : Nat), n ≤ m → ∀ d, Le (readObject env lim n d) (readObject env lim m d) := by
  intro n
  induction n with
  | zero => intro m _ d; exact .stuck _
  | succ n ih =>
    intro m hm d
    obtain ⟨m, rfl⟩ : ∃ m', m = m' + 1 := ⟨m - 1, by omega⟩
    exact .bind (.refl _) fun id => .ite (.refl _) (.ite (.bind (.refl _) fun r => .ite (.refl _) (.bind (.refl _) fun id => .bind (.refl _) fun s =>
      .bind (.refl _) fun t => .bind (.readFeatures env lim (ih m (by omega)) _ _ _ _ _ _ (by omega) _ _) fun d => .refl _)) (.refl _))

theorem Le.readResource (n m : Nat) (h : n ≤ m) : Le (readResource env lim n) (readResource env lim m) :=
  .bind (.refl _) fun _ => .bind (.refl _) fun s => .bind (.refl _) fun k => .bind (.readObjects (Le.readObject env lim n m h) k {}) fun r => .refl _

theorem Le.readRoot (n m : Nat) (h : n ≤ m) : Le (readRoot env lim n) (readRoot env lim m) :=
  .bind (.refl _) fun _ => .bind (Le.readObject env lim n m h {}) fun r => .refl _

end Verif.BinaryErrors
