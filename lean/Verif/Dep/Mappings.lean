import Verif.Model.MapLib
/-!
# Contract of `source-map-mappings`, with a concrete instance

The contract says what the documentation of the crate says, in terms of the decoded segments of
`Verif/Spec/Mappings.lean`. It does not say what the column spans are, and it does not say that the
operations return: that is the separate `MapLib.Total`.
-/

namespace RSM

/-- Lexicographic order of positions. -/
def PLt (a b : Nat × Nat) : Prop := a.1 < b.1 ∨ (a.1 = b.1 ∧ a.2 < b.2)

instance (a b : Nat × Nat) : Decidable (PLt a b) := by unfold PLt; infer_instance

/-- `r` is what a search for position `q` should find among `l`: an element at `q` if there is one,
otherwise the nearest one on the side the bias asks for, otherwise nothing. -/
def Nearest {α : Type} (pos : α → Nat × Nat) (l : List α) (q : Nat × Nat) (b : Bias) : Option α → Prop
  | some r => r ∈ l ∧ (pos r = q ∨ ((∀ s ∈ l, pos s ≠ q) ∧
      match b with
      | .glb => PLt (pos r) q ∧ ∀ s ∈ l, PLt (pos s) q → ¬ PLt (pos r) (pos s)
      | .lub => PLt q (pos r) ∧ ∀ s ∈ l, PLt q (pos s) → ¬ PLt (pos s) (pos r)))
  | none => ∀ s ∈ l, pos s ≠ q ∧
      match b with
      | .glb => ¬ PLt (pos s) q
      | .lub => ¬ PLt q (pos s)

namespace Spec

/-- Generated position. -/
def RawMapping.genPos (m : RawMapping) : Nat × Nat := (m.line, m.column)

/-- Original position, for a mapping that has one. -/
def RawMapping.origPos (m : RawMapping) : Nat × Nat :=
  match m.original with
  | some o => (o.line, o.column)
  | none => (0, 0)

/-- Does the mapping come from the given source? -/
def RawMapping.fromSource (src : Nat) (m : RawMapping) : Bool :=
  match m.original with
  | some o => o.source == src
  | none => false

/-- Source, original line and column of `a` are before or the same as those of `b`. -/
def RawMapping.origLe (a b : RawMapping) : Bool :=
  match a.original, b.original with
  | some x, some y => decide (x.source < y.source ∨ (x.source = y.source ∧
      (x.line < y.line ∨ (x.line = y.line ∧ x.column ≤ y.column))))
  | _, _ => true

/-- Generated line and column of `a` are before or the same as those of `b`. -/
def RawMapping.genLe (a b : RawMapping) : Bool :=
  decide (a.line < b.line ∨ (a.line = b.line ∧ a.column ≤ b.column))

/-- All numbers are 32-bit. -/
def RawMapping.U32 (m : RawMapping) : Prop :=
  m.line < 4294967296 ∧ m.column < 4294967296 ∧
  ∀ o, m.original = some o → o.source < 4294967296 ∧ o.line < 4294967296 ∧ o.column < 4294967296 ∧
    ∀ n, o.name = some n → n < 4294967296

end Spec

/-- The segments a `Mappings` value stands for. -/
def MapLib.core (L : MapLib) (m : L.M) : List Spec.RawMapping := (L.byGenerated m).map LibMapping.raw

/-- What the proofs assume of `source-map-mappings`. -/
structure MapLib.Laws (L : MapLib) : Prop where
  /-- Parsing accepts every well-formed string and finds exactly its segments. -/
  parse : ∀ t raws, Spec.decodeMappings t = some raws → (∀ r ∈ raws, r.U32) →
    ∃ m, L.parse t = some m ∧ (L.core m).Perm raws
  /-- The mappings are kept sorted by generated position. -/
  sorted : ∀ m, (L.core m).Pairwise (fun a b => a.genLe b = true)
  u32 : ∀ m, ∀ r ∈ L.core m, r.U32
  /-- No operation changes the segments. -/
  spans_core : ∀ m m', L.computeColumnSpans m = .ok m' → L.core m' = L.core m
  orig_core : ∀ m l c b o m', L.originalLocationFor m l c b = .ok (o, m') → L.core m' = L.core m
  gen_core : ∀ m s l c b o m', L.generatedLocationFor m s l c b = .ok (o, m') → L.core m' = L.core m
  all_core : ∀ m s l c o m', L.allGeneratedLocationsFor m s l c = .ok (o, m') → L.core m' = L.core m
  byOrig_core : ∀ m o m', L.byOriginal m = .ok (o, m') → L.core m' = L.core m
  /-- Searches by generated position. -/
  orig : ∀ m l c b o m', L.originalLocationFor m l c b = .ok (o, m') →
    Nearest Spec.RawMapping.genPos (L.core m) (l, c) b (o.map LibMapping.raw)
  /-- Searches by original position, within a source. -/
  gen : ∀ m s l c b o m', L.generatedLocationFor m s l c b = .ok (o, m') →
    Nearest Spec.RawMapping.origPos ((L.core m).filter (·.fromSource s)) (l, c) b (o.map LibMapping.raw)
  /-- All mappings at an original position, when there are any; otherwise at least nothing foreign. -/
  all : ∀ m s l c o m', L.allGeneratedLocationsFor m s l (some c) = .ok (o, m') →
    (∃ r ∈ L.core m, r.fromSource s = true ∧ r.origPos = (l, c)) →
    (o.map LibMapping.raw).Perm
      ((L.core m).filter fun r => r.fromSource s && decide (r.origPos = (l, c)))
  all_sub : ∀ m s l c o m', L.allGeneratedLocationsFor m s l c = .ok (o, m') →
    ∀ x ∈ o, x.raw ∈ L.core m ∧ x.raw.fromSource s = true
  /-- Iteration by original position. -/
  byOrig : ∀ m o m', L.byOriginal m = .ok (o, m') →
    (o.map LibMapping.raw).Perm ((L.core m).filter (·.original.isSome)) ∧
    (o.map LibMapping.raw).Pairwise (fun a b => a.origLe b = true)
  /-- The answers, spans apart, depend only on the segments. -/
  orig_det : ∀ m₁ m₂ l c b o₁ o₂ m₁' m₂', L.core m₁ = L.core m₂ →
    L.originalLocationFor m₁ l c b = .ok (o₁, m₁') → L.originalLocationFor m₂ l c b = .ok (o₂, m₂') →
    o₁.map LibMapping.raw = o₂.map LibMapping.raw
  gen_det : ∀ m₁ m₂ s l c b o₁ o₂ m₁' m₂', L.core m₁ = L.core m₂ →
    L.generatedLocationFor m₁ s l c b = .ok (o₁, m₁') →
    L.generatedLocationFor m₂ s l c b = .ok (o₂, m₂') →
    o₁.map LibMapping.raw = o₂.map LibMapping.raw
  all_det : ∀ m₁ m₂ s l c o₁ o₂ m₁' m₂', L.core m₁ = L.core m₂ →
    L.allGeneratedLocationsFor m₁ s l c = .ok (o₁, m₁') →
    L.allGeneratedLocationsFor m₂ s l c = .ok (o₂, m₂') →
    o₁.map LibMapping.raw = o₂.map LibMapping.raw
  byOrig_det : ∀ m₁ m₂ o₁ o₂ m₁' m₂', L.core m₁ = L.core m₂ →
    L.byOriginal m₁ = .ok (o₁, m₁') → L.byOriginal m₂ = .ok (o₂, m₂') →
    o₁.map LibMapping.raw = o₂.map LibMapping.raw

/-- The operations return. -/
structure MapLib.Total (L : MapLib) : Prop where
  spans : ∀ m, ∃ m', L.computeColumnSpans m = .ok m'
  orig : ∀ m l c b, ∃ r, L.originalLocationFor m l c b = .ok r
  gen : ∀ m s l c b, ∃ r, L.generatedLocationFor m s l c b = .ok r
  all : ∀ m s l c, ∃ r, L.allGeneratedLocationsFor m s l c = .ok r
  byOrig : ∀ m, ∃ r, L.byOriginal m = .ok r

/-! ## The instance -/

namespace SimpleMap

/-- The last (`glb`) or first (`lub`) position on the right side of `q`. -/
def better (b : Bias) (x y : Nat × Nat) : Bool :=
  match b with
  | .glb => decide (PLt y x)
  | .lub => decide (PLt x y)

def onSide (b : Bias) (q x : Nat × Nat) : Bool :=
  match b with
  | .glb => decide (PLt x q)
  | .lub => decide (PLt q x)

def best {α : Type} (pos : α → Nat × Nat) (b : Bias) : List α → Option α
  | [] => none
  | x :: l =>
    match best pos b l with
    | none => some x
    | some y => if better b (pos x) (pos y) then some x else some y

def nearest {α : Type} (pos : α → Nat × Nat) (l : List α) (q : Nat × Nat) (b : Bias) : Option α :=
  match l.find? (fun x => decide (pos x = q)) with
  | some r => some r
  | none => best pos b (l.filter (fun x => onSide b q (pos x)))

/-- The mappings with the column spans: up to the next mapping on the line. -/
def withSpans : List Spec.RawMapping → List LibMapping
  | [] => []
  | [a] => [⟨a.line, a.column, none, a.original⟩]
  | a :: b :: l =>
    ⟨a.line, a.column, if a.line = b.line then some b.column else none, a.original⟩ :: withSpans (b :: l)

def withoutSpans (l : List Spec.RawMapping) : List LibMapping :=
  l.map fun a => ⟨a.line, a.column, none, a.original⟩

structure State where
  raws : List Spec.RawMapping
  spans : Bool
  sorted : raws.Pairwise (fun a b => a.genLe b = true)
  u32 : ∀ r ∈ raws, r.U32

def State.list (s : State) : List LibMapping := if s.spans then withSpans s.raws else withoutSpans s.raws

def u32B (m : Spec.RawMapping) : Bool :=
  decide (m.line < 4294967296) && decide (m.column < 4294967296) &&
  match m.original with
  | none => true
  | some o => decide (o.source < 4294967296) && decide (o.line < 4294967296) && decide (o.column < 4294967296) &&
    match o.name with
    | none => true
    | some n => decide (n < 4294967296)

theorem u32B_iff (m : Spec.RawMapping) : u32B m = true ↔ m.U32 := by
  rcases m with ⟨l, c, _ | ⟨s, ol, oc, _ | n⟩⟩ <;> simp [u32B, Spec.RawMapping.U32, and_assoc]

instance (m : Spec.RawMapping) : Decidable m.U32 := decidable_of_iff _ (u32B_iff m)

theorem genLe_trans (a b c : Spec.RawMapping) (h1 : a.genLe b = true) (h2 : b.genLe c = true) :
    a.genLe c = true := by
  simp only [Spec.RawMapping.genLe, decide_eq_true_eq] at *; omega

theorem genLe_total (a b : Spec.RawMapping) : (a.genLe b || b.genLe a) = true := by
  simp only [Spec.RawMapping.genLe, Bool.or_eq_true, decide_eq_true_eq]; omega

/-- Source, original line and column. -/
def key (m : Spec.RawMapping) : Nat × Nat × Nat :=
  match m.original with
  | some o => (o.source, o.line, o.column)
  | none => (0, 0, 0)

def keyLe (a b : Spec.RawMapping) : Bool :=
  decide ((key a).1 < (key b).1 ∨ ((key a).1 = (key b).1 ∧
    ((key a).2.1 < (key b).2.1 ∨ ((key a).2.1 = (key b).2.1 ∧ (key a).2.2 ≤ (key b).2.2))))

/-- Insertion sort, which the kernel can compute. -/
def insertBy {α : Type} (le : α → α → Bool) (x : α) : List α → List α
  | [] => [x]
  | y :: l => if le x y then x :: y :: l else y :: insertBy le x l

def sortBy {α : Type} (le : α → α → Bool) : List α → List α
  | [] => []
  | x :: l => insertBy le x (sortBy le l)

theorem insertBy_perm {α : Type} (le : α → α → Bool) (x : α) : ∀ l : List α, (insertBy le x l).Perm (x :: l)
  | [] => .refl _
  | y :: l => by
    unfold insertBy
    split
    · exact .refl _
    · exact ((insertBy_perm le x l).cons y).trans (.swap x y l)

theorem sortBy_perm {α : Type} (le : α → α → Bool) : ∀ l : List α, (sortBy le l).Perm l
  | [] => .refl _
  | x :: l => (insertBy_perm le x _).trans ((sortBy_perm le l).cons x)

theorem insertBy_sorted {α : Type} {le : α → α → Bool} (ht : ∀ a b c, le a b = true → le b c = true → le a c = true)
    (htot : ∀ a b, (le a b || le b a) = true) (x : α) : ∀ l : List α, l.Pairwise (fun a b => le a b = true) →
    (insertBy le x l).Pairwise (fun a b => le a b = true)
  | [], _ => by simp [insertBy]
  | y :: l, h => by
    rw [List.pairwise_cons] at h
    unfold insertBy
    split
    · rename_i hxy
      rw [List.pairwise_cons, List.pairwise_cons]
      refine ⟨?_, h⟩
      intro z hz
      rcases List.mem_cons.1 hz with rfl | hz
      · exact hxy
      · exact ht _ _ _ hxy (h.1 z hz)
    · rename_i hxy
      rw [List.pairwise_cons]
      refine ⟨?_, insertBy_sorted ht htot x l h.2⟩
      intro z hz
      rcases List.mem_cons.1 ((insertBy_perm le x l).mem_iff.1 hz) with rfl | hz
      · have := htot z y
        simpa [hxy] using this
      · exact h.1 z hz

theorem sortBy_sorted {α : Type} {le : α → α → Bool} (ht : ∀ a b c, le a b = true → le b c = true → le a c = true)
    (htot : ∀ a b, (le a b || le b a) = true) : ∀ l : List α, (sortBy le l).Pairwise (fun a b => le a b = true)
  | [] => .nil
  | x :: l => insertBy_sorted ht htot x _ (sortBy_sorted ht htot l)

theorem insertBy_map {α β : Type} (le : β → β → Bool) (f : α → β) (x : α) : ∀ l : List α,
    (insertBy (fun a b => le (f a) (f b)) x l).map f = insertBy le (f x) (l.map f)
  | [] => rfl
  | y :: l => by
    simp only [insertBy, List.map_cons]
    split
    · rfl
    · rw [List.map_cons, insertBy_map le f x l]

theorem sortBy_map {α β : Type} (le : β → β → Bool) (f : α → β) : ∀ l : List α,
    (sortBy (fun a b => le (f a) (f b)) l).map f = sortBy le (l.map f)
  | [] => rfl
  | x :: l => by
    simp only [sortBy, List.map_cons]
    rw [insertBy_map, sortBy_map le f l]

def parse (t : Text) : Option State :=
  match Spec.decodeMappings t with
  | none => none
  | some raws =>
    if h : ∀ r ∈ raws, r.U32 then
      some ⟨sortBy Spec.RawMapping.genLe raws, false,
        sortBy_sorted genLe_trans genLe_total raws,
        fun r hr => h r ((sortBy_perm _ raws).mem_iff.mp hr)⟩
    else none

abbrev lib : MapLib where
  M := State
  parse := parse
  byGenerated := State.list
  computeColumnSpans m := .ok { m with spans := true }
  originalLocationFor m l c b := .ok (nearest (fun x => x.raw.genPos) m.list (l, c) b, m)
  generatedLocationFor m s l c b :=
    .ok (nearest (fun x => x.raw.origPos) (m.list.filter (fun x => x.raw.fromSource s)) (l, c) b, m)
  allGeneratedLocationsFor m s l c :=
    .ok (m.list.filter (fun x => x.raw.fromSource s && decide (x.raw.origPos = (l, c.getD 0))), m)
  byOriginal m :=
    .ok (sortBy (fun a b => keyLe a.raw b.raw) (m.list.filter (fun x => x.raw.original.isSome)), m)

theorem best_map {α β : Type} (pos : β → Nat × Nat) (f : α → β) (b : Bias) (l : List α) :
    (best (fun x => pos (f x)) b l).map f = best pos b (l.map f) := by
  induction l with
  | nil => rfl
  | cons x l ih =>
    simp only [best, List.map_cons, ← ih]
    cases best (fun x => pos (f x)) b l with
    | none => rfl
    | some y => simp only [Option.map_some]; split <;> rfl

theorem nearest_map {α β : Type} (pos : β → Nat × Nat) (f : α → β) (l : List α) (q : Nat × Nat) (b : Bias) :
    (nearest (fun x => pos (f x)) l q b).map f = nearest pos (l.map f) q b := by
  simp only [nearest, List.find?_map]
  have : (fun x => decide (pos (f x) = q)) = ((fun x => decide (pos x = q)) ∘ f) := rfl
  rw [this]
  cases List.find? ((fun x => decide (pos x = q)) ∘ f) l with
  | some r => rfl
  | none =>
    simp only [Option.map_none]
    rw [best_map, List.filter_map]
    rfl

theorem raw_withSpans (l : List Spec.RawMapping) : (withSpans l).map LibMapping.raw = l := by
  induction l with
  | nil => rfl
  | cons a l ih =>
    cases l with
    | nil => rfl
    | cons b l => simp only [withSpans, List.map_cons, ih]; rfl

theorem core_eq (m : State) : lib.core m = m.raws := by
  show (if m.spans then withSpans m.raws else withoutSpans m.raws).map LibMapping.raw = m.raws
  split
  · exact raw_withSpans _
  · simp only [withoutSpans, List.map_map]
    exact List.map_id _

theorem PLt_irrefl (a : Nat × Nat) : ¬ PLt a a := by unfold PLt; omega
theorem PLt_trans {a b c : Nat × Nat} (h1 : PLt a b) (h2 : PLt b c) : PLt a c := by unfold PLt at *; omega
theorem PLt_total {a b : Nat × Nat} (h : ¬ PLt a b) : a = b ∨ PLt b a := by
  obtain ⟨a1, a2⟩ := a; obtain ⟨b1, b2⟩ := b
  simp only [PLt, Prod.mk.injEq] at *; omega

theorem better_trans {b : Bias} {x y z : Nat × Nat} (h1 : better b x y = true) (h2 : better b z x = true) :
    better b z y = true := by
  cases b <;> simp only [better, decide_eq_true_eq] at *
  · exact PLt_trans h1 h2
  · exact PLt_trans h2 h1

theorem best_spec {α : Type} (pos : α → Nat × Nat) (b : Bias) : ∀ l : List α,
    match best pos b l with
    | none => l = []
    | some r => r ∈ l ∧ ∀ s ∈ l, better b (pos s) (pos r) = false := by
  intro l
  induction l with
  | nil => rfl
  | cons x l ih =>
    simp only [best]
    have irr : better b (pos x) (pos x) = false := by
      cases b <;> simp [better, PLt_irrefl]
    cases hb : best pos b l with
    | none =>
      rw [hb] at ih
      simp only at ih
      subst ih
      simp [irr]
    | some y =>
      rw [hb] at ih
      simp only at ih ⊢
      cases hxy : better b (pos x) (pos y) with
      | true =>
        simp only [if_true, List.mem_cons, true_or, true_and]
        rintro s (rfl | hs)
        · exact irr
        · cases hsx : better b (pos s) (pos x) with
          | false => rfl
          | true => have := ih.2 s hs; rw [better_trans hxy hsx] at this; exact this
      | false =>
        simp only [Bool.false_eq_true, if_false, List.mem_cons]
        refine ⟨.inr ih.1, ?_⟩
        rintro s (rfl | hs)
        · exact hxy
        · exact ih.2 s hs

theorem nearest_spec {α : Type} (pos : α → Nat × Nat) (l : List α) (q : Nat × Nat) (b : Bias) :
    Nearest pos l q b (nearest pos l q b) := by
  unfold nearest
  cases hf : l.find? (fun x => decide (pos x = q)) with
  | some r =>
    simp only [Nearest]
    have h1 := List.find?_some hf
    simp only [decide_eq_true_eq] at h1
    exact ⟨List.mem_of_find?_eq_some hf, .inl h1⟩
  | none =>
    have h0 : ∀ s ∈ l, pos s ≠ q := by simpa using hf
    have hb := best_spec pos b (l.filter (fun x => onSide b q (pos x)))
    simp only
    cases hr : best pos b (l.filter (fun x => onSide b q (pos x))) with
    | none =>
      rw [hr] at hb
      simp only [List.filter_eq_nil_iff] at hb
      simp only [Nearest]
      intro s hs
      refine ⟨h0 s hs, ?_⟩
      have := hb s hs
      cases b <;> simpa [onSide] using this
    | some r =>
      rw [hr] at hb
      simp only [List.mem_filter] at hb
      simp only [Nearest]
      refine ⟨hb.1.1, .inr ⟨h0, ?_⟩⟩
      have h1 := hb.1.2
      have h2 := fun s hs hq => hb.2 s ⟨hs, hq⟩
      cases b <;> simp only [onSide, decide_eq_true_eq, better, decide_eq_false_iff_not] at h1 h2 <;>
        exact ⟨h1, h2⟩

theorem keyLe_trans (a b c : Spec.RawMapping) (h1 : keyLe a b = true) (h2 : keyLe b c = true) :
    keyLe a c = true := by
  simp only [keyLe, decide_eq_true_eq] at *; omega

theorem keyLe_total (a b : Spec.RawMapping) : (keyLe a b || keyLe b a) = true := by
  simp only [keyLe, Bool.or_eq_true, decide_eq_true_eq]; omega

theorem keyLe_origLe {a b : Spec.RawMapping} (h : keyLe a b = true) : a.origLe b = true := by
  obtain ⟨_, _, ao⟩ := a; obtain ⟨_, _, bo⟩ := b
  cases ao <;> cases bo <;> simp [keyLe, key, Spec.RawMapping.origLe] at *
  exact of_decide_eq_true h

theorem map_filter_raw {p : Spec.RawMapping → Bool} (l : List LibMapping) :
    (l.filter (fun x => p x.raw)).map LibMapping.raw = (l.map LibMapping.raw).filter p := by
  rw [List.filter_map]; rfl

theorem list_raw (m : State) : m.list.map LibMapping.raw = m.raws := core_eq m

theorem orig_raw (m : State) (l c : Nat) (b : Bias) :
    (nearest (fun x => x.raw.genPos) m.list (l, c) b).map LibMapping.raw =
      nearest Spec.RawMapping.genPos m.raws (l, c) b := by
  rw [nearest_map Spec.RawMapping.genPos LibMapping.raw, list_raw]

theorem gen_raw (m : State) (s l c : Nat) (b : Bias) :
    (nearest (fun x => x.raw.origPos) (m.list.filter (fun x => x.raw.fromSource s)) (l, c) b).map
      LibMapping.raw =
      nearest Spec.RawMapping.origPos (m.raws.filter (·.fromSource s)) (l, c) b := by
  rw [nearest_map Spec.RawMapping.origPos LibMapping.raw,
    map_filter_raw (p := fun x => x.fromSource s), list_raw]

theorem all_raw (m : State) (s l : Nat) (c : Option Nat) :
    (m.list.filter (fun x => x.raw.fromSource s && decide (x.raw.origPos = (l, c.getD 0)))).map
      LibMapping.raw =
      m.raws.filter (fun x => x.fromSource s && decide (x.origPos = (l, c.getD 0))) := by
  rw [map_filter_raw (p := fun x => x.fromSource s && decide (x.origPos = (l, c.getD 0))), list_raw]

theorem byOrig_raw (m : State) :
    (sortBy (fun a b => keyLe a.raw b.raw) (m.list.filter (fun x => x.raw.original.isSome))).map
      LibMapping.raw = sortBy keyLe (m.raws.filter (·.original.isSome)) := by
  rw [sortBy_map keyLe LibMapping.raw,
    map_filter_raw (p := fun x => x.original.isSome), list_raw]

end SimpleMap

open SimpleMap in
/-- The instance satisfies the contract. -/
theorem simpleMap_laws : SimpleMap.lib.Laws where
  parse t raws h hu := by
    refine ⟨⟨sortBy Spec.RawMapping.genLe raws, false,
        sortBy_sorted genLe_trans genLe_total raws,
        fun r hr => hu r ((sortBy_perm _ raws).mem_iff.mp hr)⟩, ?_, ?_⟩
    · show SimpleMap.parse t = _
      simp only [SimpleMap.parse, h]
      rw [dif_pos hu]
    · rw [core_eq]
      exact sortBy_perm _ _
  sorted m := by rw [core_eq]; exact m.sorted
  u32 m := by rw [core_eq]; exact m.u32
  spans_core m m' h := by cases h; rw [core_eq, core_eq]
  orig_core m l c b o m' h := by cases h; rfl
  gen_core m s l c b o m' h := by cases h; rfl
  all_core m s l c o m' h := by cases h; rfl
  byOrig_core m o m' h := by cases h; rfl
  orig m l c b o m' h := by
    cases h; rw [core_eq, orig_raw]; exact nearest_spec _ _ _ _
  gen m s l c b o m' h := by
    cases h; rw [core_eq, gen_raw]; exact nearest_spec _ _ _ _
  all m s l c o m' h _ := by
    cases h; rw [core_eq, all_raw]; exact List.Perm.refl _
  all_sub m s l c o m' h := by
    cases h
    intro x hx
    have := List.mem_map_of_mem (f := LibMapping.raw) hx
    rw [all_raw] at this
    rw [core_eq]
    simp only [List.mem_filter, Bool.and_eq_true] at this
    exact ⟨this.1, this.2.1⟩
  byOrig m o m' h := by
    cases h
    rw [core_eq, byOrig_raw]
    exact ⟨sortBy_perm _ _,
      (sortBy_sorted keyLe_trans keyLe_total _).imp keyLe_origLe⟩
  orig_det m₁ m₂ l c b o₁ o₂ m₁' m₂' hc h₁ h₂ := by
    cases h₁; cases h₂
    rw [core_eq, core_eq] at hc
    rw [orig_raw, orig_raw, hc]
  gen_det m₁ m₂ s l c b o₁ o₂ m₁' m₂' hc h₁ h₂ := by
    cases h₁; cases h₂
    rw [core_eq, core_eq] at hc
    rw [gen_raw, gen_raw, hc]
  all_det m₁ m₂ s l c o₁ o₂ m₁' m₂' hc h₁ h₂ := by
    cases h₁; cases h₂
    rw [core_eq, core_eq] at hc
    rw [all_raw, all_raw, hc]
  byOrig_det m₁ m₂ o₁ o₂ m₁' m₂' hc h₁ h₂ := by
    cases h₁; cases h₂
    rw [core_eq, core_eq] at hc
    rw [byOrig_raw, byOrig_raw, hc]

/-- The operations of the instance return. -/
theorem simpleMap_total : SimpleMap.lib.Total where
  spans _ := ⟨_, rfl⟩
  orig _ _ _ _ := ⟨_, rfl⟩
  gen _ _ _ _ _ := ⟨_, rfl⟩
  all _ _ _ _ := ⟨_, rfl⟩
  byOrig _ := ⟨_, rfl⟩

end RSM
