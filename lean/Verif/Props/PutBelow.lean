import Verif.Props.FirstLines
/-! # Property C136: two mappings strings put together with a semicolon -/

namespace RSM
open Spec BasicConsumer

variable {E : Env}

/-- The source, original line and original column of the last segment with a source, and the last name number; zero where
there is none. -/
def lastValues (raws : List RawMapping) : DState :=
  let os := raws.filterMap (·.original)
  ⟨(os.getLast?.map (·.source)).getD 0, (os.getLast?.map (·.line)).getD 0, (os.getLast?.map (·.column)).getD 0,
    (os.filterMap (·.name)).getLast?.getD 0⟩

/-- A segment `k` lines further down, with its numbers counted from those of `e`. -/
def Spec.RawMapping.counted (k : Nat) (e : DState) (r : RawMapping) : RawMapping :=
  ⟨r.line + k, r.column,
    r.original.map fun o => ⟨o.source + e.source, o.line + e.line, o.column + e.column, o.name.map (· + e.name)⟩⟩

/-- The original position counted from that of `e`. -/
def Mapping.counted (e : DState) (m : Mapping) : Mapping :=
  { m with original := m.original.map fun p => ⟨p.line + e.line, p.column + e.column⟩ }

def Spec.DState.plus (d e : DState) : DState := ⟨d.source + e.source, d.line + e.line, d.column + e.column, d.name + e.name⟩

theorem lastValues_fold (raws : List RawMapping) : raws.foldl DState.after ⟨0, 0, 0, 0⟩ = lastValues raws := by
  induction raws using List.reverseRecOn with
  | nil => rfl
  | append_singleton l r ih =>
    rw [List.foldl_append, List.foldl_cons, List.foldl_nil, ih]
    obtain ⟨gl, gc, o⟩ := r
    cases o with
    | none => simp [DState.after, lastValues]
    | some o =>
      obtain ⟨s, li, c, n⟩ := o
      cases n <;> simp [DState.after, lastValues, List.filterMap_append]

theorem decodeSegments_after : ∀ {ss : List (List Char)} {line col : Nat} {d d' : DState} {ms : List RawMapping},
    decodeSegments line col d ss = some (ms, d') → d' = ms.foldl DState.after d
  | [], _, _, _, _, _, h => by
    simp only [decodeSegments, Option.some.injEq, Prod.mk.injEq] at h
    obtain ⟨rfl, rfl⟩ := h
    rfl
  | s :: ss, line, col, d, d', ms, h => by
    simp only [decodeSegments, Option.bind_eq_bind, Option.bind_eq_some_iff, Option.some.injEq, Prod.mk.injEq] at h
    obtain ⟨⟨r, d1⟩, h1, ⟨rs, d2⟩, h2, rfl, rfl⟩ := h
    rw [decodeSegments_after h2, (decodeSegment_inv h1).2]
    rfl

theorem decodeLines_one {line : Nat} {d : DState} {l : List Char} {ls : List (List Char)} :
    decodeLines line d (l :: ls) =
      (if l = [] then some ([], d) else decodeSegments line 0 d (splitOn ',' l)).bind fun x =>
        (decodeLines (line + 1) x.2 ls).bind fun rest => some (x.1 ++ rest) := by
  simp only [decodeLines]
  split <;> rfl

theorem decodeLine_after {line : Nat} {d d' : DState} {l : List Char} {ms : List RawMapping}
    (h : (if l = [] then some ([], d) else decodeSegments line 0 d (splitOn ',' l)) = some (ms, d')) :
    d' = ms.foldl DState.after d := by
  split at h
  · simp only [Option.some.injEq, Prod.mk.injEq] at h
    obtain ⟨rfl, rfl⟩ := h
    rfl
  · exact decodeSegments_after h

theorem decodeLines_join : ∀ {la lb : List (List Char)} {line : Nat} {d : DState} {ra rb : List RawMapping},
    decodeLines line d la = some ra → decodeLines (line + la.length) (ra.foldl DState.after d) lb = some rb →
    decodeLines line d (la ++ lb) = some (ra ++ rb)
  | [], lb, line, d, ra, rb, h, h' => by
    simp only [decodeLines, Option.some.injEq] at h
    subst h
    exact h'
  | l :: la, lb, line, d, ra, rb, h, h' => by
    rw [decodeLines_one] at h
    simp only [Option.bind_eq_some_iff, Option.some.injEq] at h
    obtain ⟨⟨ms, d1⟩, h1, rest, h2, rfl⟩ := h
    rw [List.foldl_append, ← decodeLine_after h1, List.length_cons,
      show line + (la.length + 1) = line + 1 + la.length by omega] at h'
    rw [List.cons_append, decodeLines_one, h1, Option.bind_some, decodeLines_join h2 h', Option.bind_some,
      List.append_assoc]

theorem offset_plus {b v e : Nat} {x : Int} (h : offset b x = some v) (hu : v + e < 4294967296) :
    offset (b + e) x = some (v + e) := by
  have := offset_inv h
  unfold offset
  rw [if_pos (by omega)]
  congr 1
  omega

theorem decodeSegment_counted {line col k : Nat} {d d1 e : DState} {cs : List Char} {r : RawMapping}
    (h : decodeSegment line col d cs = some (r, d1)) (hu : (r.counted k e).U32) :
    decodeSegment (line + k) col (d.plus e) cs = some (r.counted k e, d1.plus e) := by
  unfold decodeSegment at h ⊢
  split at h <;> simp only [Option.bind_eq_bind, Option.bind_eq_some_iff, Option.some.injEq, Prod.mk.injEq,
    reduceCtorEq] at h
  · obtain ⟨c, h1, rfl, rfl⟩ := h
    simp [h1, RawMapping.counted]
  · obtain ⟨c, h1, s, h2, l, h3, q, h4, rfl, rfl⟩ := h
    obtain ⟨-, -, hu⟩ := hu
    obtain ⟨u1, u2, u3, -⟩ := hu _ rfl
    simp [h1, DState.plus, offset_plus h2 u1, offset_plus h3 u2, offset_plus h4 u3, RawMapping.counted]
  · obtain ⟨c, h1, s, h2, l, h3, q, h4, n, h5, rfl, rfl⟩ := h
    obtain ⟨-, -, hu⟩ := hu
    obtain ⟨u1, u2, u3, u4⟩ := hu _ rfl
    simp [h1, DState.plus, offset_plus h2 u1, offset_plus h3 u2, offset_plus h4 u3, offset_plus h5 (u4 _ rfl),
      RawMapping.counted]

theorem decodeSegments_counted {k : Nat} {e : DState} : ∀ {ss : List (List Char)} {line col : Nat} {d d1 : DState}
    {ms : List RawMapping}, decodeSegments line col d ss = some (ms, d1) → (∀ r ∈ ms, (r.counted k e).U32) →
    decodeSegments (line + k) col (d.plus e) ss = some (ms.map (RawMapping.counted k e), d1.plus e)
  | [], _, _, _, _, _, h, _ => by
    simp only [decodeSegments, Option.some.injEq, Prod.mk.injEq] at h
    obtain ⟨rfl, rfl⟩ := h
    rfl
  | s :: ss, line, col, d, d1, ms, h, hu => by
    simp only [decodeSegments, Option.bind_eq_bind, Option.bind_eq_some_iff, Option.some.injEq, Prod.mk.injEq] at h
    obtain ⟨⟨r, d2⟩, h1, ⟨rs, d3⟩, h2, rfl, rfl⟩ := h
    simp only [decodeSegments, Option.bind_eq_bind, decodeSegment_counted h1 (hu _ (by simp)), Option.bind_some]
    rw [show (RawMapping.counted k e r).column = r.column from rfl,
      decodeSegments_counted h2 fun x hx => hu x (by simp [hx])]
    rfl

theorem decodeLines_counted {k : Nat} {e : DState} : ∀ {ls : List (List Char)} {line : Nat} {d : DState}
    {ms : List RawMapping}, decodeLines line d ls = some ms → (∀ r ∈ ms, (r.counted k e).U32) →
    decodeLines (line + k) (d.plus e) ls = some (ms.map (RawMapping.counted k e))
  | [], _, _, _, h, _ => by
    simp only [decodeLines, Option.some.injEq] at h
    subst h
    rfl
  | l :: ls, line, d, ms, h, hu => by
    rw [decodeLines_one] at h
    simp only [Option.bind_eq_some_iff, Option.some.injEq] at h
    obtain ⟨⟨rs, d1⟩, h1, rest, h2, rfl⟩ := h
    have key : (if l = [] then some ([], d.plus e) else decodeSegments (line + k) 0 (d.plus e) (splitOn ',' l)) =
        some (rs.map (RawMapping.counted k e), d1.plus e) := by
      split at h1
      · rename_i hl
        simp only [Option.some.injEq, Prod.mk.injEq] at h1
        obtain ⟨rfl, rfl⟩ := h1
        rw [if_pos hl]
        rfl
      · rename_i hl
        rw [if_neg hl]
        exact decodeSegments_counted h1 fun x hx => hu x (by simp [hx])
    have ih := decodeLines_counted h2 fun x hx => hu x (by simp [hx])
    rw [show line + 1 + k = line + k + 1 by omega] at ih
    rw [decodeLines_one, key, Option.bind_some, ih, Option.bind_some, List.map_append]

theorem decodeLines_upto : ∀ {ls : List (List Char)} {line : Nat} {d : DState} {ms : List RawMapping},
    decodeLines line d ls = some ms → ∀ r ∈ ms, r.line < line + ls.length
  | [], _, _, _, h => by simp only [decodeLines, Option.some.injEq] at h; simp [← h]
  | l :: ls, line, d, ms, h => by
    rw [decodeLines_one] at h
    simp only [Option.bind_eq_some_iff, Option.some.injEq] at h
    obtain ⟨⟨rs, d1⟩, h1, rest, h2, rfl⟩ := h
    intro r hr
    rw [List.length_cons]
    rcases List.mem_append.1 hr with hr | hr
    · split at h1
      · simp only [Option.some.injEq, Prod.mk.injEq] at h1
        rw [← h1.1] at hr
        cases hr
      · have := decodeSegments_line h1 r hr
        omega
    · have := decodeLines_upto h2 r hr
      omega

/-- The strings put together decode to the segments of the first and those of the second, counted on from the last numbers of
the first. -/
theorem C136_decodes {a b : List Char} {ra rb : List RawMapping} (ha : decodeMappings a = some ra)
    (hb : decodeMappings b = some rb) (hu : ∀ r ∈ rb, (r.counted (a.count ';' + 1) (lastValues ra)).U32) :
    decodeMappings (a ++ ';' :: b) = some (ra ++ rb.map (RawMapping.counted (a.count ';' + 1) (lastValues ra))) := by
  unfold decodeMappings at *
  rw [splitOn_lines]
  refine decodeLines_join ha ?_
  have := decodeLines_counted hb hu
  rw [lastValues_fold, splitOn_count]
  rw [Nat.zero_add] at this ⊢
  rw [← this]
  congr 1
  simp [DState.plus]

theorem counted_named {S S' N N' : List String} {k : Nat} {e : DState}
    (hS : ∀ i < S.length, S'[i + e.source]? = S[i]?) (hN : ∀ i < N.length, N'[i + e.name]? = N[i]?) {r : RawMapping}
    {limit : Nat} (hr : Fits S N limit r) :
    named S' N' (r.counted k e) = ((named S N r).counted e).after (k, 0) := by
  obtain ⟨gl, gc, o⟩ := r
  obtain ⟨-, -, hr⟩ := hr
  cases o with
  | none =>
    simp only [named, RawMapping.counted, Mapping.counted, Mapping.after, Position.after, Mapping.mk.injEq,
      Position.mk.injEq]
    refine ⟨⟨?_, ?_⟩, by simp⟩
    · push_cast; omega
    · exact ((congrArg ((gc : Int) + ·) (ite_self (0 : Int))).trans (Int.add_zero _)).symm
  | some o =>
    obtain ⟨s, l, c, n⟩ := o
    obtain ⟨h1, -, -, -, h2⟩ := hr _ rfl
    simp only [named, RawMapping.counted, Mapping.counted, Mapping.after, Position.after, Mapping.mk.injEq,
      Position.mk.injEq, Option.map_some, Option.bind_some, hS s h1, Option.some.injEq]
    refine ⟨⟨?_, ?_⟩, ⟨?_, ?_⟩, trivial, ?_, trivial⟩
    · push_cast; omega
    · exact ((congrArg ((gc : Int) + ·) (ite_self (0 : Int))).trans (Int.add_zero _)).symm
    · push_cast; omega
    · push_cast; rfl
    · cases n with
      | none => rfl
      | some n => exact hN n (h2 _ rfl)

/-- The strings put together make a map again. -/
theorem C136_segments {m m' j : SourceMapJson} {ra rb : List RawMapping} (ha : m.Segments ra) (hb : m'.Segments rb)
    {a b t : String} (hma : m.mappings = some a) (hmb : m'.mappings = some b) (hj : j.mappings = some t)
    (ht : t.toList = a.toList ++ ';' :: b.toList)
    (hu : ∀ r ∈ rb, (r.counted (a.toList.count ';' + 1) (lastValues ra)).U32) :
    j.Segments (ra ++ rb.map (RawMapping.counted (a.toList.count ';' + 1) (lastValues ra))) := by
  obtain ⟨_, h1, h2, h3⟩ := ha
  obtain ⟨_, h1', h2', -⟩ := hb
  rw [hma] at h1
  rw [hmb] at h1'
  cases h1
  cases h1'
  refine ⟨t, hj, by rw [ht]; exact C136_decodes h2 h2' hu, fun r hr => ?_⟩
  rcases List.mem_append.1 hr with hr | hr
  · exact h3 r hr
  · obtain ⟨r, hr', rfl⟩ := List.mem_map.1 hr
    exact hu r hr'

/-- The segments of a text are on its lines. -/
theorem lines_within {m : SourceMapJson} {ra : List RawMapping} (ha : m.Segments ra) {a : String}
    (hma : m.mappings = some a) : ∀ r ∈ ra, r.line < a.toList.count ';' + 1 := by
  obtain ⟨_, h1, h2, -⟩ := ha
  rw [hma] at h1
  cases h1
  intro r hr
  have := decodeLines_upto h2 r hr
  rw [splitOn_count] at this
  omega

/-- A map with the segments of another below those of a text. -/
theorem counted_original (hL : E.maps.Laws) (hT : E.maps.Total) {m' j : SourceMapJson} {ra rb : List RawMapping} {k : Nat}
    {e : DState} (hb : m'.Segments rb) (hseg : j.Segments (ra ++ rb.map (RawMapping.counted k e)))
    (early : ∀ r ∈ ra, r.line < k)
    {u u' : Option String} {c₀ c d₀ d : BasicConsumer E} (h : Built m' u c₀) (hd : Built j u' d₀)
    {N N' : List String} (hN : m'.names = some N) (hN' : j.names = some N')
    {ops ops' : List Op} (hrun : c₀.run ops = .ok c) (hrun' : d₀.run ops' = .ok d)
    (hnames : ∀ i < N.length, N'[i + e.name]? = N[i]?)
    (hsources : ∀ i < c.getSources.length, d.getSources[i + e.source]? = c.getSources[i]?)
    (hlen : c.getSources.length < 2147483648) (hlen' : d.getSources.length < 2147483648)
    (hfit : ∀ x ∈ rb, Fits c.getSources N 2147483648 x)
    (hfit' : ∀ x ∈ ra ++ rb.map (RawMapping.counted k e), Fits d.getSources N' 2147483648 x)
    (honce : GenOnce (rb.map (named c.getSources N))) {p : Position} {bias : Option Bias}
    (hp : 1 ≤ p.line ∧ 0 ≤ p.column) (hi : p.line + k ≤ 2147483647 ∧ p.column ≤ 2147483647) :
    (d.originalPositionFor ⟨p.line + k, p.column⟩ bias).map (fun r => r.1.map stripMapping) =
      (c.originalPositionFor p bias).map (fun r => r.1.map fun x => ((stripMapping x).counted e).after (k, 0)) := by
  have hpe : (⟨p.line + k, p.column⟩ : Position) = p.after (k, 0) := by
    simp only [Position.after, Position.mk.injEq, true_and]
    split <;> simp
  rw [hpe]
  refine retold_original (g := Mapping.counted e) (fun x => ⟨rfl, by simp [Mapping.counted]⟩) hL hT h hd hb hseg hN hN'
    (h.rel.run hL hrun) (hd.rel.run hL hrun') hlen hlen' hfit hfit' honce ?_ hp (by rw [← hpe]; exact hi)
  intro y hy _
  have same : ∀ r ∈ rb, named d.getSources N' (r.counted k e) = ((named c.getSources N r).counted e).after (k, 0) :=
    fun r hr => counted_named hsources hnames (hfit r hr)
  rw [List.map_append, List.mem_append]
  constructor
  · rintro (hm | hm)
    · obtain ⟨r, hr, rfl⟩ := List.mem_map.1 hm
      have := early r hr
      rw [← hpe] at hy
      simp only [Position.Le, named] at hy
      omega
    · obtain ⟨_, hm', rfl⟩ := List.mem_map.1 hm
      obtain ⟨r, hr, rfl⟩ := List.mem_map.1 hm'
      exact ⟨_, List.mem_map.2 ⟨_, List.mem_map.2 ⟨r, hr, rfl⟩, rfl⟩, same r hr⟩
  · rintro ⟨x, hx, rfl⟩
    obtain ⟨_, hm', rfl⟩ := List.mem_map.1 hx
    obtain ⟨r, hr, rfl⟩ := List.mem_map.1 hm'
    exact .inr (List.mem_map.2 ⟨_, List.mem_map.2 ⟨r, hr, rfl⟩, same r hr⟩)

/-- On the lines of the second the whole answers as the second, moved down, with original positions counted from the last one
of the first. -/
theorem C136_original (hL : E.maps.Laws) (hT : E.maps.Total) {m m' j : SourceMapJson} {ra rb : List RawMapping}
    (ha : m.Segments ra) (hb : m'.Segments rb)
    {a b t : String} (hma : m.mappings = some a) (hmb : m'.mappings = some b) (hj : j.mappings = some t)
    (ht : t.toList = a.toList ++ ';' :: b.toList)
    (hu : ∀ r ∈ rb, (r.counted (a.toList.count ';' + 1) (lastValues ra)).U32)
    {u u' : Option String} {c₀ c d₀ d : BasicConsumer E} (h : Built m' u c₀) (hd : Built j u' d₀)
    {N N' : List String} (hN : m'.names = some N) (hN' : j.names = some N')
    {ops ops' : List Op} (hrun : c₀.run ops = .ok c) (hrun' : d₀.run ops' = .ok d)
    (hnames : ∀ i < N.length, N'[i + (lastValues ra).name]? = N[i]?)
    (hsources : ∀ i < c.getSources.length, d.getSources[i + (lastValues ra).source]? = c.getSources[i]?)
    (hlen : c.getSources.length < 2147483648) (hlen' : d.getSources.length < 2147483648)
    (hfit : ∀ x ∈ rb, Fits c.getSources N 2147483648 x)
    (hfit' : ∀ x ∈ ra ++ rb.map (RawMapping.counted (a.toList.count ';' + 1) (lastValues ra)),
      Fits d.getSources N' 2147483648 x)
    (honce : GenOnce (rb.map (named c.getSources N))) {p : Position} {bias : Option Bias}
    (hp : 1 ≤ p.line ∧ 0 ≤ p.column)
    (hi : p.line + (a.toList.count ';' + 1 : Nat) ≤ 2147483647 ∧ p.column ≤ 2147483647) :
    (d.originalPositionFor ⟨p.line + (a.toList.count ';' + 1 : Nat), p.column⟩ bias).map (fun r => r.1.map stripMapping) =
      (c.originalPositionFor p bias).map (fun r => r.1.map fun x =>
        ((stripMapping x).counted (lastValues ra)).after (a.toList.count ';' + 1, 0)) :=
  counted_original hL hT hb (C136_segments ha hb hma hmb hj ht hu) (lines_within ha hma) h hd hN hN' hrun hrun' hnames
    hsources hlen hlen' hfit hfit' honce hp hi

theorem counted_visits (hL : E.maps.Laws) {m m' j : SourceMapJson} {ra rb : List RawMapping} {k : Nat} {e : DState}
    (ha : m.Segments ra) (hb : m'.Segments rb) (hseg : j.Segments (ra ++ rb.map (RawMapping.counted k e)))
    (early : ∀ r ∈ ra, r.line < k)
    {u u' u'' : Option String} {b₀ b₁ b₂ c₀ c c' d₀ d d' : BasicConsumer E} (hA : Built m u b₀) (hB : Built m' u' c₀)
    (hJ : Built j u'' d₀) {ops ops' ops'' : List Op} (hrunA : b₀.run ops = .ok b₁) (hrunB : c₀.run ops' = .ok c)
    (hrunJ : d₀.run ops'' = .ok d) (hda : GenDistinct ra) (hdb : GenDistinct rb) {la lb lj : List LibMapping}
    (hla : b₁.eachMapping .generated = .ok (la, b₂)) (hlb : c.eachMapping .generated = .ok (lb, c'))
    (hlj : d.eachMapping .generated = .ok (lj, d')) :
    lj.map LibMapping.raw = la.map LibMapping.raw ++ (lb.map LibMapping.raw).map (RawMapping.counted k e) := by
  obtain ⟨_, _, k1, k2, k3⟩ := C36_each_generated hL hA hrunA ha
  obtain ⟨_, _, k1', k2', k3'⟩ := C36_each_generated hL hB hrunB hb
  obtain ⟨_, _, k1'', k2'', k3''⟩ := C36_each_generated hL hJ hrunJ hseg
  rw [hla] at k1
  rw [hlb] at k1'
  rw [hlj] at k1''
  cases k1
  cases k1'
  cases k1''
  have hdist : GenDistinct (ra ++ rb.map (RawMapping.counted k e)) := by
    refine List.pairwise_append.2 ⟨hda, ?_, ?_⟩
    · rw [List.pairwise_map]
      refine hdb.imp fun {x y} hxy heq => hxy ?_
      simp only [RawMapping.genPos, RawMapping.counted, Prod.mk.injEq] at heq ⊢
      omega
    · intro x hx y hy heq
      obtain ⟨y, -, rfl⟩ := List.mem_map.1 hy
      have := early x hx
      simp only [RawMapping.genPos, RawMapping.counted, Prod.mk.injEq] at heq
      omega
  refine (k2''.trans (k2.append (k2'.map _)).symm).eq_of_pairwise (le := fun a b => a.genLe b = true) ?_ ?_ ?_
  · intro x y hx hy h1 h2
    refine injOn_of_pairwise hdist x (k2''.mem_iff.1 hx) y ((k2.append (k2'.map _)).mem_iff.1 hy) ?_
    simp only [RawMapping.genLe, decide_eq_true_eq, RawMapping.genPos, Prod.mk.injEq] at h1 h2 ⊢
    omega
  · exact k3''.imp fun h => by simpa [RawMapping.genLe] using h
  · refine List.pairwise_append.2 ⟨k3.imp fun h => by simpa [RawMapping.genLe] using h, ?_, ?_⟩
    · rw [List.pairwise_map]
      refine k3'.imp fun {x y} h => ?_
      refine decide_eq_true (show x.line + k < y.line + k ∨ x.line + k = y.line + k ∧ x.column ≤ y.column from ?_)
      omega
    · intro x hx y hy
      obtain ⟨y, -, rfl⟩ := List.mem_map.1 hy
      have := early x (k2.mem_iff.1 hx)
      refine decide_eq_true (show x.line < y.line + k ∨ x.line = y.line + k ∧ x.column ≤ y.column from ?_)
      omega

/-- What is visited in generated order: the first, then the second, counted on. -/
theorem C136_visits (hL : E.maps.Laws) {m m' j : SourceMapJson} {ra rb : List RawMapping}
    (ha : m.Segments ra) (hb : m'.Segments rb)
    {a b t : String} (hma : m.mappings = some a) (hmb : m'.mappings = some b) (hj : j.mappings = some t)
    (ht : t.toList = a.toList ++ ';' :: b.toList)
    (hu : ∀ r ∈ rb, (r.counted (a.toList.count ';' + 1) (lastValues ra)).U32)
    {u u' u'' : Option String} {b₀ b₁ b₂ c₀ c c' d₀ d d' : BasicConsumer E} (hA : Built m u b₀) (hB : Built m' u' c₀)
    (hJ : Built j u'' d₀) {ops ops' ops'' : List Op} (hrunA : b₀.run ops = .ok b₁) (hrunB : c₀.run ops' = .ok c)
    (hrunJ : d₀.run ops'' = .ok d) (hda : GenDistinct ra) (hdb : GenDistinct rb) {la lb lj : List LibMapping}
    (hla : b₁.eachMapping .generated = .ok (la, b₂)) (hlb : c.eachMapping .generated = .ok (lb, c'))
    (hlj : d.eachMapping .generated = .ok (lj, d')) :
    lj.map LibMapping.raw = la.map LibMapping.raw ++
      (lb.map LibMapping.raw).map (RawMapping.counted (a.toList.count ';' + 1) (lastValues ra)) :=
  counted_visits hL ha hb (C136_segments ha hb hma hmb hj ht hu) (lines_within ha hma) hA hB hJ hrunA hrunB hrunJ hda hdb hla
    hlb hlj

/-- A small map about the last source and name of the demo map. -/
def demoBelow : SourceMapJson :=
  { demoMap with sources := some ["two.js"], names := some ["n"], sourcesContent := none, mappings := some "AAAA;CACAA" }

/-- The mappings strings of the two put together. -/
def demoPut : SourceMapJson :=
  { demoMap with
    mappings := some "CAAC,IAAI,IAAM,SAAUA,GAClB,OAAOC,IAAID;CCDb,IAAI,IAAM,SAAUE,GAClB,OAAOA;AAAA;CACAA" }

def demoBelowRaws : List RawMapping := [⟨0, 0, some ⟨0, 0, 0, none⟩⟩, ⟨1, 1, some ⟨0, 1, 0, some 0⟩⟩]

/-- The hypotheses hold of the three; the last numbers of the demo map are not zero. -/
theorem put_below_fits : lastValues demoRaws = ⟨1, 1, 10, 2⟩ ∧ ∃ c d : BasicConsumer demoEnv, Built demoBelow none c ∧
    Built demoPut none d ∧ demoMap.Segments demoRaws ∧ demoBelow.Segments demoBelowRaws ∧
    (∃ a b t : String, demoMap.mappings = some a ∧ demoBelow.mappings = some b ∧ demoPut.mappings = some t ∧
      t.toList = a.toList ++ ';' :: b.toList ∧ a.toList.count ';' + 1 = 2) ∧
    (∀ r ∈ demoBelowRaws, (r.counted 2 (lastValues demoRaws)).U32) ∧
    (∀ i < ["n"].length, ["bar", "baz", "n"][i + (lastValues demoRaws).name]? = ["n"][i]?) ∧
    (∀ i < c.getSources.length, d.getSources[i + (lastValues demoRaws).source]? = c.getSources[i]?) ∧
    (∀ x ∈ demoBelowRaws, Fits c.getSources ["n"] 2147483648 x) ∧
    (∀ x ∈ demoRaws ++ demoBelowRaws.map (RawMapping.counted 2 (lastValues demoRaws)),
      Fits d.getSources ["bar", "baz", "n"] 2147483648 x) ∧
    GenOnce (demoBelowRaws.map (named c.getSources ["n"])) ∧ GenDistinct demoRaws ∧ GenDistinct demoBelowRaws := by
  obtain ⟨c, hc, h⟩ := Res.of_test (r := demoConsumer demoBelow)
    (fun c => decide (c.getSources = ["two.js"])) (by decide +kernel)
  obtain ⟨d, hd, h'⟩ := Res.of_test (r := demoConsumer demoPut)
    (fun c => decide (c.getSources = ["one.js", "two.js"])) (by decide +kernel)
  simp only [decide_eq_true_eq] at h h'
  have hv : lastValues demoRaws = ⟨1, 1, 10, 2⟩ := by decide +kernel
  refine ⟨hv, c, d, .inr hc, .inr hd, ⟨_, rfl, by decide +kernel, by simp [demoRaws, RawMapping.U32]⟩,
    ⟨_, rfl, by decide +kernel, by simp [demoBelowRaws, RawMapping.U32]⟩,
    ⟨_, _, _, rfl, rfl, rfl, by decide +kernel, by decide +kernel⟩, ?_, ?_, ?_, ?_, ?_, ?_, ?_, ?_⟩
  · rw [hv]; simp [demoBelowRaws, RawMapping.counted, RawMapping.U32]
  · rw [hv]; decide
  · rw [hv, h, h']; decide
  · rw [h]; decide +kernel
  · rw [h']; decide +kernel
  · rw [h]; unfold GenOnce; decide +kernel
  · unfold GenDistinct; decide +kernel
  · unfold GenDistinct; decide +kernel

/-- The line 2 of the small map is line 4 of the whole, and original line 2, column 0 has become line 3, column 10. -/
theorem C136_case :
    demoAsk demoBelow (fun c => c.originalPositionFor ⟨1, 5⟩ (some .lub)) =
      .ok (some ⟨⟨2, 1⟩, some ⟨2, 0⟩, some "two.js", some "n", none⟩) ∧
    demoAsk demoPut (fun c => c.originalPositionFor ⟨3, 5⟩ (some .lub)) =
      .ok (some ⟨⟨4, 1⟩, some ⟨3, 10⟩, some "two.js", some "n", none⟩) := by
  refine ⟨?_, ?_⟩ <;> decide +kernel

end RSM
