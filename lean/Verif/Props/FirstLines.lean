import Verif.Props.Joined
/-! # Property C135: how far into the mappings string an answer looks -/

namespace RSM
open Spec BasicConsumer

variable {E : Env}

/-- The text begins with the lines of `a`: it is `a`, or goes on with a line end after it. -/
def FirstLines (a t : List Char) : Prop := t = a ∨ ∃ r, t = a ++ ';' :: r

/-- One list begins with the other. -/
def BeginAlike (l l' : List String) : Prop := l <+: l' ∨ l' <+: l

theorem splitOn_lines (a r : List Char) : splitOn ';' (a ++ ';' :: r) = splitOn ';' a ++ splitOn ';' r := by
  induction a with
  | nil => rw [List.nil_append, splitOn_sep]; rfl
  | cons c a ih =>
    obtain ⟨l, ls, hl⟩ := splitOn_cons_of ';' a
    simp only [List.cons_append, splitOn, ih, hl]
    split <;> rfl

theorem splitOn_count (a : List Char) : (splitOn ';' a).length = a.count ';' + 1 := by
  induction a with
  | nil => rfl
  | cons c a ih =>
    obtain ⟨l, ls, hl⟩ := splitOn_cons_of ';' a
    rw [hl] at ih
    simp only [splitOn, hl, List.count_cons, beq_iff_eq]
    split <;> simp only [List.length_cons] at * <;> omega

theorem decodeLines_append : ∀ {la lb : List (List Char)} {line : Nat} {d : DState} {raws : List RawMapping},
    decodeLines line d (la ++ lb) = some raws → ∃ ra d' rb, decodeLines line d la = some ra ∧
      decodeLines (line + la.length) d' lb = some rb ∧ raws = ra ++ rb
  | [], _, _, d, raws, h => ⟨[], d, raws, rfl, h, rfl⟩
  | l :: la, lb, line, d, raws, h => by
    have step : ∀ {ls : List (List Char)}, decodeLines line d (l :: ls) =
        (if l = [] then some ([], d) else decodeSegments line 0 d (splitOn ',' l)).bind fun x =>
          (decodeLines (line + 1) x.2 ls).bind fun rest => some (x.1 ++ rest) := by
      intro ls
      simp only [decodeLines]
      split <;> rfl
    rw [List.cons_append, step] at h
    simp only [Option.bind_eq_some_iff, Option.some.injEq] at h
    obtain ⟨⟨ms, d1⟩, h1, rest, h2, rfl⟩ := h
    obtain ⟨ra, d', rb, h3, h4, rfl⟩ := decodeLines_append h2
    refine ⟨ms ++ ra, d', rb, ?_, ?_, by simp⟩
    · simp only [step, h1, h3, Option.bind_some]
    · rw [List.length_cons, show line + (la.length + 1) = line + 1 + la.length by omega]; exact h4

/-- The first lines of a text that decodes decode to the first of its segments, and the others are on later lines. -/
theorem first_lines {a t : List Char} (h : FirstLines a t) {raws : List RawMapping} (hd : decodeMappings t = some raws) :
    ∃ ra rb, decodeMappings a = some ra ∧ raws = ra ++ rb ∧ ∀ r ∈ rb, a.count ';' < r.line := by
  rcases h with rfl | ⟨r, rfl⟩
  · exact ⟨raws, [], hd, by simp, by simp⟩
  · unfold decodeMappings at hd
    rw [splitOn_lines] at hd
    obtain ⟨ra, d', rb, h1, h2, h3⟩ := decodeLines_append hd
    refine ⟨ra, rb, h1, h3, fun x hx => ?_⟩
    have := decodeLines_line h2 x hx
    rw [splitOn_count] at this
    omega

/-- What is left of a map if its mappings string is cut off after any line is a map again. -/
theorem C135_cut {m : SourceMapJson} {raws : List RawMapping} (hseg : m.Segments raws) {a t : String}
    (ht : m.mappings = some t) (ha : FirstLines a.toList t.toList) :
    ∃ ra, ({ m with mappings := some a } : SourceMapJson).Segments ra ∧
      ra.filter (·.line ≤ a.toList.count ';') = raws.filter (·.line ≤ a.toList.count ';') ∧ ra <+: raws := by
  obtain ⟨t', h1, h2, h3⟩ := hseg
  rw [ht] at h1
  cases h1
  obtain ⟨ra, rb, h4, rfl, h5⟩ := first_lines ha h2
  refine ⟨ra, ⟨a, rfl, h4, fun r hr => h3 r (by simp [hr])⟩, ?_, ⟨rb, rfl⟩⟩
  rw [List.filter_append, List.filter_eq_nil_iff (l := rb) |>.2 (fun x hx => by
    have := h5 x hx
    simpa using this), List.append_nil]

theorem first_named {S S' N N' : List String} (hS : BeginAlike S S') (hN : BeginAlike N N') {k k' : Nat} {x : RawMapping}
    (h : Fits S N k x) (h' : Fits S' N' k' x) : named S N x = named S' N' x := by
  have at_ : ∀ {l l' : List String}, BeginAlike l l' → ∀ {i : Nat}, i < l.length → i < l'.length → l[i]? = l'[i]? := by
    intro l l' hl i hi hi'
    rcases hl with ⟨r, rfl⟩ | ⟨r, rfl⟩
    · rw [List.getElem?_append_left hi]
    · rw [List.getElem?_append_left hi']
  obtain ⟨gl, gc, o⟩ := x
  cases o with
  | none => rfl
  | some o =>
    obtain ⟨s, l, c, n⟩ := o
    obtain ⟨-, -, h⟩ := h
    obtain ⟨-, -, h'⟩ := h'
    obtain ⟨h1, -, -, -, h2⟩ := h _ rfl
    obtain ⟨h1', -, -, -, h2'⟩ := h' _ rfl
    cases n with
    | none => simp [named, at_ hS h1 h1']
    | some n => simp [named, at_ hS h1 h1', at_ hN (h2 _ rfl) (h2' _ rfl)]

/-- What is asked at a line is answered from the lines of the mappings string up to the next one. -/
theorem C135_original (hL : E.maps.Laws) (hT : E.maps.Total) {m m' : SourceMapJson} {raws raws' : List RawMapping}
    {u u' : Option String} {c₀ c d₀ d : BasicConsumer E} (h : Built m u c₀) (hd : Built m' u' d₀)
    (hseg : m.Segments raws) (hseg' : m'.Segments raws') {a t t' : String} (ht : m.mappings = some t)
    (ht' : m'.mappings = some t') (ha : FirstLines a.toList t.toList) (ha' : FirstLines a.toList t'.toList)
    {N N' : List String} (hN : m.names = some N) (hN' : m'.names = some N') (hnames : BeginAlike N N')
    {ops ops' : List Op} (hrun : c₀.run ops = .ok c) (hrun' : d₀.run ops' = .ok d)
    (hsources : BeginAlike c.getSources d.getSources)
    (hlen : c.getSources.length < 2147483648) (hlen' : d.getSources.length < 2147483648)
    (hfit : ∀ x ∈ raws, Fits c.getSources N 2147483648 x) (hfit' : ∀ x ∈ raws', Fits d.getSources N' 2147483648 x)
    (honce : GenOnce (raws.map (named c.getSources N))) {p : Position} {b : Option Bias}
    (hp : 1 ≤ p.line ∧ 0 ≤ p.column) (hi : p.line ≤ 2147483647 ∧ p.column ≤ 2147483647)
    (hwithin : p.line ≤ a.toList.count ';') :
    (d.originalPositionFor p b).map (fun r => r.1.map stripMapping) =
      (c.originalPositionFor p b).map (fun r => r.1.map stripMapping) := by
  obtain ⟨s, h1, h2, -⟩ := id hseg
  obtain ⟨s', h1', h2', -⟩ := id hseg'
  rw [ht] at h1
  rw [ht'] at h1'
  cases h1
  cases h1'
  obtain ⟨ra, rb, h4, rfl, h5⟩ := first_lines ha h2
  obtain ⟨ra', rb', h4', rfl, h5'⟩ := first_lines ha' h2'
  rw [h4] at h4'
  cases h4'
  have key := after_original hL hT h hd hseg hseg' hN hN' (h.rel.run hL hrun) (hd.rel.run hL hrun') hlen hlen' hfit hfit'
    honce (p := p) (e := (0, 0)) (b := b) ?_ hp (by rw [p.after_zero]; exact hi)
  · rw [p.after_zero] at key
    simpa only [Mapping.after_zero] using key
  · intro y _ hy
    simp only [Mapping.after_zero, exists_eq_right']
    have late : ∀ {S N : List String} {l : List RawMapping}, (∀ r ∈ l, a.toList.count ';' < r.line) →
        ¬ y ∈ l.map (named S N) := by
      intro S N l hl hm
      obtain ⟨r, hr, rfl⟩ := List.mem_map.1 hm
      have := hl r hr
      simp only [named] at hy
      omega
    have same : ra.map (named c.getSources N) = ra.map (named d.getSources N') :=
      List.map_congr_left fun x hx => first_named hsources hnames (hfit x (by simp [hx])) (hfit' x (by simp [hx]))
    rw [List.map_append, List.map_append, List.mem_append, List.mem_append, same]
    constructor
    · rintro (h | h)
      · exact .inl h
      · exact absurd h (late h5')
    · rintro (h | h)
      · exact .inl h
      · exact absurd h (late h5)

/-- A source only the first lines speak of is answered for from them, whatever follows. -/
theorem C135_generated (hL : E.maps.Laws) {m m' : SourceMapJson} {raws raws' : List RawMapping}
    {u u' : Option String} {c₀ c d₀ d : BasicConsumer E} (h : Built m u c₀) (hd : Built m' u' d₀)
    (hseg : m.Segments raws) (hseg' : m'.Segments raws') {a t t' : String} (ht : m.mappings = some t)
    (ht' : m'.mappings = some t') (ha : FirstLines a.toList t.toList) (ha' : FirstLines a.toList t'.toList)
    {N N' : List String} (hnames : BeginAlike N N')
    {ops ops' : List Op} (hrun : c₀.run ops = .ok c) (hrun' : d₀.run ops' = .ok d)
    (hsources : BeginAlike c.getSources d.getSources)
    (hlen : c.getSources.length < 2147483648) (hlen' : d.getSources.length < 2147483648)
    (hfit : ∀ x ∈ raws, Fits c.getSources N 2147483648 x) (hfit' : ∀ x ∈ raws', Fits d.getSources N' 2147483648 x)
    (honce : OrigOnce (raws.map (named c.getSources N))) (hnd : c.getSources.Nodup) (hnd' : d.getSources.Nodup)
    {s src : String} {i i' : Nat} (hs : c.Knows s i) (hs' : d.Knows s i') (hi : c.getSources[i]? = some src)
    (hi' : d.getSources[i']? = some src)
    (hearly : ∀ x ∈ raws, (named c.getSources N x).source = some src → x.line ≤ a.toList.count ';')
    (hearly' : ∀ x ∈ raws', (named d.getSources N' x).source = some src → x.line ≤ a.toList.count ';')
    {l col : Int} {b : Option Bias} (hp : IsI32 l ∧ IsI32 col) {r r' : Option Mapping} {c' d' : BasicConsumer E}
    (hr : c.generatedPositionFor s l col b = .ok (r, c')) (hr' : d.generatedPositionFor s l col b = .ok (r', d')) :
    r'.map Mapping.unnamed = r.map Mapping.unnamed := by
  obtain ⟨_, h1, h2, -⟩ := id hseg
  obtain ⟨_, h1', h2', -⟩ := id hseg'
  rw [ht] at h1
  rw [ht'] at h1'
  cases h1
  cases h1'
  obtain ⟨ra, rb, h4, rfl, h5⟩ := first_lines ha h2
  obtain ⟨ra', rb', h4', rfl, h5'⟩ := first_lines ha' h2'
  rw [h4] at h4'
  cases h4'
  have key := after_generated hL h hd hseg hseg' hrun hrun' hlen hlen' hfit hfit' honce hnd hnd' hs hs' hi hi'
    (e := (0, 0)) ?_ hp hr hr'
  · simpa only [Mapping.after_zero] using key
  · intro y hy
    simp only [Mapping.after_zero, exists_eq_right']
    have same : ra.map (named c.getSources N) = ra.map (named d.getSources N') :=
      List.map_congr_left fun x hx => first_named hsources hnames (hfit x (by simp [hx])) (hfit' x (by simp [hx]))
    rw [List.map_append, List.map_append, List.mem_append, List.mem_append, same]
    constructor
    · rintro (h | h)
      · exact .inl h
      · obtain ⟨x, hx, rfl⟩ := List.mem_map.1 h
        have := h5' x hx
        have := hearly' x (by simp [hx]) hy
        omega
    · rintro (h | h)
      · exact .inl h
      · obtain ⟨x, hx, rfl⟩ := List.mem_map.1 h
        have := h5 x hx
        have := hearly x (by simp [hx]) hy
        omega

/-- What is visited on the lines both begin with is the same, and in the same order if no two mappings are at one place. -/
theorem C135_visits (hL : E.maps.Laws) {m m' : SourceMapJson} {raws raws' : List RawMapping}
    {u u' : Option String} {c₀ c d₀ d : BasicConsumer E} (h : Built m u c₀) (hd : Built m' u' d₀)
    (hseg : m.Segments raws) (hseg' : m'.Segments raws') {a t t' : String} (ht : m.mappings = some t)
    (ht' : m'.mappings = some t') (ha : FirstLines a.toList t.toList) (ha' : FirstLines a.toList t'.toList)
    {ops ops' : List Op} (hrun : c₀.run ops = .ok c) (hrun' : d₀.run ops' = .ok d) {l l' : List LibMapping}
    {c' d' : BasicConsumer E} (hl : c.eachMapping .generated = .ok (l, c')) (hl' : d.eachMapping .generated = .ok (l', d')) :
    ((l.map LibMapping.raw).filter (·.line ≤ a.toList.count ';')).Perm
      ((l'.map LibMapping.raw).filter (·.line ≤ a.toList.count ';')) ∧
    (GenDistinct raws → (l.map LibMapping.raw).filter (·.line ≤ a.toList.count ';') =
      (l'.map LibMapping.raw).filter (·.line ≤ a.toList.count ';')) := by
  obtain ⟨ra, ⟨s, e1, e2, -⟩, f1, -⟩ := C135_cut hseg ht ha
  obtain ⟨ra', ⟨s', e1', e2', -⟩, f1', -⟩ := C135_cut hseg' ht' ha'
  cases e1
  cases e1'
  rw [e2] at e2'
  cases e2'
  obtain ⟨_, _, k1, k2, k3⟩ := C36_each_generated hL h hrun hseg
  obtain ⟨_, _, k1', k2', k3'⟩ := C36_each_generated hL hd hrun' hseg'
  rw [hl] at k1
  rw [hl'] at k1'
  cases k1
  cases k1'
  have hperm : ((l.map LibMapping.raw).filter (·.line ≤ a.toList.count ';')).Perm
      ((l'.map LibMapping.raw).filter (·.line ≤ a.toList.count ';')) :=
    ((k2.filter _).trans (by rw [← f1, f1'])).trans (k2'.filter _).symm
  refine ⟨hperm, fun hdist => ?_⟩
  refine hperm.eq_of_pairwise (le := fun a b => a.genLe b = true) ?_ ?_ ?_
  · intro x y hx hy h1 h2
    refine injOn_of_pairwise hdist x (k2.mem_iff.1 (List.mem_filter.1 hx).1) y
      (k2.mem_iff.1 (List.mem_filter.1 (hperm.mem_iff.2 hy)).1) ?_
    simp only [RawMapping.genLe, decide_eq_true_eq, RawMapping.genPos, Prod.mk.injEq] at h1 h2 ⊢
    omega
  · exact (k3.filter _).imp fun h => by simpa [RawMapping.genLe] using h
  · exact (k3'.filter _).imp fun h => by simpa [RawMapping.genLe] using h

/-- The demo map with a line of mappings more, of a source and a name more. -/
def demoLonger : SourceMapJson :=
  { demoMap with
    sources := some ["one.js", "two.js", "three.js"], names := some ["bar", "baz", "n", "k"]
    mappings := some "CAAC,IAAI,IAAM,SAAUA,GAClB,OAAOC,IAAID;CCDb,IAAI,IAAM,SAAUE,GAClB,OAAOA;;ACCUC" }

/-- The hypotheses hold of the two. -/
theorem first_lines_fit : ∃ c d : BasicConsumer demoEnv, Built demoMap none c ∧ Built demoLonger none d ∧
    demoMap.Segments demoRaws ∧ demoLonger.Segments (demoRaws ++ [⟨3, 0, some ⟨2, 2, 20, some 3⟩⟩]) ∧
    (∃ a t t' : String, demoMap.mappings = some t ∧ demoLonger.mappings = some t' ∧ FirstLines a.toList t.toList ∧
      FirstLines a.toList t'.toList ∧ a.toList.count ';' = 1) ∧
    BeginAlike ["bar", "baz", "n"] ["bar", "baz", "n", "k"] ∧ BeginAlike c.getSources d.getSources ∧
    (∀ x ∈ demoRaws, Fits c.getSources ["bar", "baz", "n"] 2147483648 x) ∧
    (∀ x ∈ demoRaws ++ [⟨3, 0, some ⟨2, 2, 20, some 3⟩⟩], Fits d.getSources ["bar", "baz", "n", "k"] 2147483648 x) ∧
    GenOnce (demoRaws.map (named c.getSources ["bar", "baz", "n"])) := by
  obtain ⟨c, hc, h⟩ := Res.of_test (r := demoConsumer demoMap)
    (fun c => decide (c.getSources = ["one.js", "two.js"])) (by decide +kernel)
  obtain ⟨d, hd, h'⟩ := Res.of_test (r := demoConsumer demoLonger)
    (fun c => decide (c.getSources = ["one.js", "two.js", "three.js"])) (by decide +kernel)
  simp only [decide_eq_true_eq] at h h'
  refine ⟨c, d, .inr hc, .inr hd, ⟨_, rfl, by decide +kernel, by simp [demoRaws, RawMapping.U32]⟩,
    ⟨_, rfl, by decide +kernel, by simp [demoRaws, RawMapping.U32]⟩,
    ⟨_, _, _, rfl, rfl, .inl rfl, .inr ⟨";ACCUC".toList, by decide +kernel⟩, by decide +kernel⟩, .inl ⟨["k"], rfl⟩, ?_, ?_,
    ?_, ?_⟩
  · rw [h, h']; exact .inl ⟨["three.js"], rfl⟩
  · rw [h]; decide +kernel
  · rw [h']; decide +kernel
  · rw [h]; unfold GenOnce; decide +kernel

/-- Asked for `two.js` the two answer alike. -/
theorem C135_generated_case :
    demoAsk demoMap (fun c => c.generatedPositionFor "two.js" 1 10 (some .lub)) =
      .ok (some ⟨⟨2, 9⟩, some ⟨0, 11⟩, some "two.js", some "baz", none⟩) ∧
    demoAsk demoLonger (fun c => c.generatedPositionFor "two.js" 1 10 (some .lub)) =
      .ok (some ⟨⟨2, 9⟩, some ⟨0, 11⟩, some "two.js", some "baz", none⟩) ∧
    OrigOnce (demoRaws.map (named ["one.js", "two.js"] ["bar", "baz", "n"])) := by
  refine ⟨?_, ?_, ?_⟩ <;> first | decide +kernel | (unfold OrigOnce; decide +kernel)

/-- Asked on line 1 the two answer alike. On line 3 they do not: line 4 is not among those they both have. -/
theorem C135_case :
    demoAsk demoMap (fun c => c.originalPositionFor ⟨1, 100⟩ (some .lub)) =
      .ok (some ⟨⟨2, 1⟩, some ⟨1, 1⟩, some "two.js", none, none⟩) ∧
    demoAsk demoLonger (fun c => c.originalPositionFor ⟨1, 100⟩ (some .lub)) =
      .ok (some ⟨⟨2, 1⟩, some ⟨1, 1⟩, some "two.js", none, none⟩) ∧
    demoAsk demoMap (fun c => c.originalPositionFor ⟨3, 0⟩ (some .lub)) = .ok none ∧
    demoAsk demoLonger (fun c => c.originalPositionFor ⟨3, 0⟩ (some .lub)) =
      .ok (some ⟨⟨4, 0⟩, some ⟨3, 20⟩, some "three.js", some "k", none⟩) := by
  refine ⟨?_, ?_, ?_, ?_⟩ <;> decide +kernel

/-- That what follows decodes cannot be left out: with one character that is no digit at its end no question is answered, and
nothing is visited. -/
theorem C135_fault_spoils_all : let m := { demoMap with
      mappings := some "CAAC,IAAI,IAAM,SAAUA,GAClB,OAAOC,IAAID;CCDb,IAAI,IAAM,SAAUE,GAClB,OAAOA;;*" }
    (demoAsk m fun c => c.originalPositionFor ⟨1, 100⟩ (some .lub)) = .error .unwrap ∧
    (demoAsk m fun c => c.eachMapping .generated) = .ok [] := by
  refine ⟨?_, ?_⟩ <;> decide +kernel

end RSM
