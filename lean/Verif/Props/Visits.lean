import Verif.Props.Flat
import Verif.Props.LineLocal
import Verif.Props.ListOrder
/-! # Property C121: visiting the mappings of texts put one below the other, and asking back from their sources -/

namespace RSM
open Spec BasicConsumer

variable {E : Env}

/-- What can be added to a generator without trouble: encodable mappings, of one kind at one generated position, with not too
many sources and names. -/
structure Fine (cfg : Cfg) (ms : List Mapping) : Prop where
  enc : ∀ m ∈ ms, m.Encodable cfg
  one : ∀ a ∈ ms, ∀ b ∈ ms, a.generated = b.generated → SameKey a b
  sources : (firstOccurrences (ms.filterMap Mapping.source)).length < cfg.vlqLimit
  names : (firstOccurrences (ms.filterMap Mapping.name)).length < cfg.vlqLimit

/-- The callback of `each_mapping` in generated order is told these mappings (their numbers of sources and names replaced by
the sources and names listed) by a consumer of a generator after these calls, whatever was called on the consumer before. -/
def Visited (E : Env) (root u : Option String) (gops : List GOp) (v : List Mapping) : Prop :=
  ∃ (file : Option String) (skip : Bool) (g g₁ : Generator) (c₀ c c' : BasicConsumer E) (ops : List Op) (l : List LibMapping)
    (N : List String), (Generator.new file root skip).run E.url E.cfg gops = .ok g ∧
    BasicConsumer.fromSourceMap g u = .ok (c₀, g₁) ∧ c₀.run ops = .ok c ∧ c.eachMapping .generated = .ok (l, c') ∧
    c.sourceMap.names = some N ∧ v = l.map fun x => named c.getSources N x.raw

theorem Tidied.sorted {l l' : List Mapping} (h : Tidied l l') : l'.Pairwise posLE := by
  rcases h with ⟨h, rfl⟩ | ⟨_, _, h, _⟩
  · exact h
  · refine h.imp ?_
    intro a b hab
    have hsame : a.generated = b.generated → posLE a b := fun e => .inr (by rw [e]; exact ⟨rfl, Int.le_refl _⟩)
    rcases hab with hab | hab
    · cases hab with
      | line h => exact .inl h
      | column h h' => exact .inr ⟨h, Int.le_of_lt h'⟩
      | _ => exact hsame (by assumption)
    · exact hsame hab.1

/-- Neighbours that differ are, in an ordered list of one mapping for one position, all different. -/
theorem strict_of_chain : ∀ {W : List Mapping}, W.Pairwise posLE → W.IsChain (fun a b => ¬ SameKey a b) →
    (∀ a ∈ W, ∀ b ∈ W, a.generated = b.generated → SameKey a b) → W.Pairwise posLT := by
  intro W
  induction W with
  | nil => intro _ _ _; exact .nil
  | cons a W ih =>
    intro h1 h2 h3
    obtain ⟨p1, p2⟩ := List.pairwise_cons.1 h1
    refine .cons ?_ (ih p2 (List.IsChain.of_cons h2) fun x hx y hy => h3 x (by simp [hx]) y (by simp [hy]))
    intro b hb
    refine ⟨p1 b hb, fun e => ?_⟩
    cases W with
    | nil => cases hb
    | cons b₀ W =>
      have hne := (List.isChain_cons_cons.1 h2).1
      have hle : posLE b₀ a := by
        rcases List.mem_cons.1 hb with rfl | hb
        · exact .inr (by rw [e]; exact ⟨rfl, Int.le_refl _⟩)
        · have := (List.pairwise_cons.1 p2).1 b hb
          unfold posLE at this ⊢
          rw [e]
          exact this
      exact hne (h3 a (by simp) b₀ (by simp) (posLE.antisymm (p1 b₀ (by simp)) hle))

theorem pairwise_of_forall₂ {α β : Type} {R : α → β → Prop} {P : α → α → Prop} {Q : β → β → Prop}
    (h : ∀ a b a' b', R a b → R a' b' → Q b b' → P a a') : ∀ {as : List α} {bs : List β}, List.Forall₂ R as bs →
    bs.Pairwise Q → as.Pairwise P := by
  intro as bs hf
  induction hf with
  | nil => intro _; exact .nil
  | @cons a b as bs hab hf ih =>
    intro hp
    obtain ⟨h1, h2⟩ := List.pairwise_cons.1 hp
    refine .cons ?_ (ih h2)
    intro a' ha'
    obtain ⟨b', hb', hr⟩ : ∃ b' ∈ bs, R a' b' := by
      clear ih hp h1 h2
      induction hf with
      | nil => cases ha'
      | @cons x y _ _ hxy _ ih' =>
        rcases List.mem_cons.1 ha' with rfl | ha'
        · exact ⟨y, by simp, hxy⟩
        · obtain ⟨b', h1, h2⟩ := ih' ha'
          exact ⟨b', by simp [h1], h2⟩
    exact h a b a' b' hab hr (h1 b' hb')

/-- What is visited: the mappings added, located, each once, in the order of their positions. -/
theorem Visited.list (hJ : E.json.Laws) (hL : E.maps.Laws) {root u : Option String} {gops : List GOp} {v : List Mapping}
    (hv : Visited E root u gops v) (hf : Fine E.cfg (gAdded gops)) :
    v.Pairwise posLT ∧ ∀ y, y ∈ v ↔ ∃ m ∈ gAdded gops, y = told E root u m := by
  obtain ⟨file, skip, g, g₁, c₀, c, c', ops, l, N, hg, hc, hrun, hl, hN, rfl⟩ := hv
  simp only [BasicConsumer.fromSourceMap, Generator.asString, Res.bind_eq_ok, Res.pure_eq, Except.ok.injEq,
    Prod.mk.injEq, Prod.exists] at hc
  obtain ⟨_, g1, ⟨j, _, hj, rfl, rfl⟩, c1, hnew, rfl, rfl⟩ := hc
  obtain ⟨S, N', text, raws, out, j1, j2, j3, j4, hh, hden⟩ :=
    C74_exact E.url E.cfg file root skip gops g _ j hf.enc hf.sources hf.names hg hj
  have hflat : IsI32 j.version ∧ j.sections = none := by
    obtain ⟨_, _, _, _, _, _, _, _, rfl⟩ := asJson_ok hj
    exact ⟨by show IsI32 3; decide, rfl⟩
  have hb : Built j u c1 := .inl ⟨_, C26_roundtrip_flat_partial E.json hJ j hflat.1 hflat.2, hnew⟩
  obtain ⟨raws', N₁, hseg, hnam, _, _, hmem⟩ :=
    written_told file root skip gops g _ j hf.enc hf.sources hf.names hg hj hb
  obtain rfl : raws' = raws := by
    obtain ⟨t, t1, t2, _⟩ := hseg
    rw [j3] at t1
    cases t1
    rw [j4] at t2
    exact (Option.some.inj t2).symm
  have hcm : c.sourceMap = j := by
    obtain ⟨_, _, _, _, _, _, hm, _⟩ := hb.spec
    exact ((hb.rel.run hL hrun).map).trans hm
  rw [hcm, hnam] at hN
  cases hN
  have hst := C28_sources_stable hL hb hrun
  obtain ⟨l', _, e1, hperm, hsort⟩ := C36_each_generated hL hb hrun hseg
  rw [hl] at e1
  cases e1
  have hperm' : (l.map fun x => named c.getSources N x.raw).Perm (raws'.map (named c1.getSources N)) := by
    rw [hst]
    have := hperm.map (named c1.getSources N)
    rwa [List.map_map] at this
  refine ⟨?_, fun y => by rw [hperm'.mem_iff]; exact hmem y⟩
  have hdist : raws'.Pairwise fun a b => a.genPos ≠ b.genPos := by
    have hout := hh.perm
    rw [added_append, added_mlOps, show added [MLOp.toArray] = [] from rfl, List.append_nil] at hout
    obtain ⟨_, _, htidy⟩ := hh.inv _ _ rfl
    have hsub : (withoutRepeats out).Sublist out := List.destutter_sublist _ _
    have hW := strict_of_chain (htidy.sorted.sublist hsub) (List.isChain_destutter _ _) fun a ha b hb =>
      hf.one a (hout.mem_iff.1 (hsub.subset ha)) b (hout.mem_iff.1 (hsub.subset hb))
    refine pairwise_of_forall₂ ?_ hden hW
    intro a b a' b' h1 h2 h3 h4
    refine h3.2 ?_
    rw [h1.1, h2.1]
    simp only [RawMapping.genPos, Prod.mk.injEq] at h4
    rw [h4.1, h4.2]
  have hdist' : (l.map LibMapping.raw).Pairwise fun a b => a.genPos ≠ b.genPos :=
    (hperm.symm.pairwise_iff fun h => Ne.symm h).1 hdist
  have : (l.map LibMapping.raw).Pairwise fun a b => posLT (named c.getSources N a) (named c.getSources N b) := by
    refine (hsort.and hdist').imp ?_
    intro a b hab
    refine ⟨?_, fun e => hab.2 ?_⟩
    · simp only [posLE, named]
      omega
    · simp only [named, Position.mk.injEq] at e
      simp only [RawMapping.genPos, Prod.mk.injEq]
      omega
  rw [List.pairwise_map] at this ⊢
  exact this

/-! ## Visiting -/

theorem told_down (E : Env) (root u : Option String) (k : Nat) (m : Mapping) :
    told E root u (m.down k) = (told E root u m).down k := rfl

theorem stack_visits {root u : Option String} : ∀ {texts : List (Nat × List Mapping)} {vs : List (List Mapping)},
    (∀ t ∈ texts, InText t) →
    List.Forall₂ (fun t v => v.Pairwise posLT ∧ ∀ y, y ∈ v ↔ ∃ m ∈ t.2, y = told E root u m) texts vs →
    (stack ((texts.map Prod.fst).zip vs)).Pairwise posLT ∧
      ∀ y, y ∈ stack ((texts.map Prod.fst).zip vs) ↔ ∃ m ∈ stack texts, y = told E root u m := by
  intro texts vs hin h
  induction h with
  | nil => exact ⟨.nil, fun y => by simp [stack]⟩
  | @cons t v texts vs ht h ih =>
    obtain ⟨n, ms⟩ := t
    obtain ⟨i1, i2⟩ := ih fun t ht => hin t (by simp [ht])
    simp only [List.map_cons, List.zip_cons_cons, stack]
    refine ⟨List.pairwise_append.2 ⟨ht.1, ?_, ?_⟩, ?_⟩
    · refine List.pairwise_map.2 (i1.imp ?_)
      intro a b hab
      obtain ⟨⟨al, ac⟩⟩ := a
      obtain ⟨⟨bl, bc⟩⟩ := b
      simp only [posLT, posLE, Mapping.down, Position.mk.injEq, ne_eq] at hab ⊢
      omega
    · intro a ha b hb
      obtain ⟨x, hx, rfl⟩ := (ht.2 a).1 ha
      obtain ⟨b', hb', rfl⟩ := List.mem_map.1 hb
      obtain ⟨y, hy, rfl⟩ := (i2 b').1 hb'
      have h1 := (hin (n, ms) (by simp) x hx).2
      have h2 := stack_line (fun t ht => hin t (by simp [ht])) y hy
      have h3 : (told E root u x).generated.line < ((told E root u y).down n).generated.line := by
        simp only [told, Mapping.bare, Mapping.down]
        simp only at h1
        omega
      exact ⟨.inl h3, fun e => by rw [e] at h3; omega⟩
    · intro y
      simp only [List.mem_append, List.mem_map]
      constructor
      · rintro (h1 | ⟨z, h1, rfl⟩)
        · obtain ⟨m, hm, rfl⟩ := (ht.2 y).1 h1
          exact ⟨m, .inl hm, rfl⟩
        · obtain ⟨m, hm, rfl⟩ := (i2 z).1 h1
          exact ⟨m.down n, .inr ⟨m, hm, rfl⟩, rfl⟩
      · rintro ⟨m, h1 | ⟨z, h1, rfl⟩, rfl⟩
        · exact .inl ((ht.2 _).2 ⟨m, h1, rfl⟩)
        · exact .inr ⟨told E root u z, (i2 _).2 ⟨z, h1, rfl⟩, rfl⟩

/-- C121: let a generator be given the mappings of several texts put one below the other, in any order and as often as one
likes, and others those of the texts, each its own. A consumer of the first visits what consumers of the others visit, text
after text, moved down by the lines above. -/
theorem C121_visits (hJ : E.json.Laws) (hL : E.maps.Laws) {root u : Option String} {texts : List (Nat × List GOp)}
    {vs : List (List Mapping)} {gops : List GOp} {v : List Mapping} (hin : ∀ t ∈ texts, InText (t.1, gAdded t.2))
    (hfine : ∀ t ∈ texts, Fine E.cfg (gAdded t.2)) (hf : Fine E.cfg (gAdded gops))
    (hsame : ∀ x, x ∈ (gAdded gops).map Mapping.bare ↔
      x ∈ (stack (texts.map fun t => (t.1, gAdded t.2))).map Mapping.bare)
    (hvs : List.Forall₂ (fun t v => Visited E root u t.2 v) texts vs) (hv : Visited E root u gops v) :
    v = stack ((texts.map Prod.fst).zip vs) := by
  obtain ⟨h1, h2⟩ := hv.list hJ hL hf
  have key : List.Forall₂ (fun t v => v.Pairwise posLT ∧ ∀ y, y ∈ v ↔ ∃ m ∈ t.2, y = told E root u m)
      (texts.map fun t => (t.1, gAdded t.2)) vs := by
    clear hsame hin hv h1 h2 hf
    induction hvs with
    | nil => exact .nil
    | cons ht _ ih => exact .cons (ht.list hJ hL (hfine _ (by simp))) (ih fun t ht => hfine t (by simp [ht]))
  obtain ⟨k1, k2⟩ := stack_visits (fun t ht => by
    obtain ⟨q, hq, rfl⟩ := List.mem_map.1 ht
    exact hin q hq) key
  have e : (texts.map fun t => (t.1, gAdded t.2)).map Prod.fst = texts.map Prod.fst := by simp
  rw [e] at k1 k2
  refine sorted_ext h1 k1 fun y => ?_
  rw [h2, k2]
  constructor
  · rintro ⟨m, hm, rfl⟩
    obtain ⟨m', hm', he⟩ := List.mem_map.1 ((hsame m.bare).1 (List.mem_map.2 ⟨m, hm, rfl⟩))
    exact ⟨m', hm', by rw [← told_bare, ← he, told_bare]⟩
  · rintro ⟨m, hm, rfl⟩
    obtain ⟨m', hm', he⟩ := List.mem_map.1 ((hsame m.bare).2 (List.mem_map.2 ⟨m, hm, rfl⟩))
    exact ⟨m', hm', by rw [← told_bare, ← he, told_bare]⟩

/-! ## Asking back -/

theorem stack_append : ∀ (a b : List (Nat × List Mapping)), stack (a ++ b) = stack a ++ (stack b).map (Mapping.down (height a)) := by
  intro a
  induction a with
  | nil =>
    intro b
    have : (fun m : Mapping => m.down 0) = id := funext down_zero
    simp [stack, height, this]
  | cons t a ih =>
    intro b
    obtain ⟨n, ms⟩ := t
    simp only [List.cons_append, stack, height, ih, List.map_append, List.map_map, List.append_assoc]
    congr 3
    funext m
    simp only [Function.comp, down_down]

theorem stack_source : ∀ {texts : List (Nat × List Mapping)} {m : Mapping}, m ∈ stack texts →
    ∃ q ∈ texts, ∃ x ∈ q.2, m.source = x.source := by
  intro texts
  induction texts with
  | nil => intro m hm; cases hm
  | cons t rest ih =>
    intro m hm
    rcases List.mem_append.1 hm with hm | hm
    · exact ⟨t, by simp, m, hm, rfl⟩
    · obtain ⟨z, hz, rfl⟩ := List.mem_map.1 hm
      obtain ⟨q, h1, x, h2, h3⟩ := ih hz
      exact ⟨q, by simp [h1], x, h2, h3⟩

/-- C121, asking back: with the generators of C116, if a source is used by one of the texts only, `generated_position_for`
of a consumer of the whole answers for it as a consumer of the map of the text alone, with the lines above added to the generated
line, apart from the name (C34). -/
theorem C121_generated (hJ : E.json.Laws) (hL : E.maps.Laws) (file file' root : Option String)
    (skip skip' : Bool) (gops gops' : List GOp) (g g₁ g' g₁' : Generator)
    (henc : ∀ m ∈ gAdded gops, m.Encodable E.cfg) (henc' : ∀ m ∈ gAdded gops', m.Encodable E.cfg)
    (hS : (firstOccurrences ((gAdded gops).filterMap Mapping.source)).length < E.cfg.vlqLimit)
    (hN : (firstOccurrences ((gAdded gops).filterMap Mapping.name)).length < E.cfg.vlqLimit)
    (hS' : (firstOccurrences ((gAdded gops').filterMap Mapping.source)).length < E.cfg.vlqLimit)
    (hN' : (firstOccurrences ((gAdded gops').filterMap Mapping.name)).length < E.cfg.vlqLimit)
    {pre post : List (Nat × List Mapping)} {n : Nat}
    (hsame : ∀ x, x ∈ (gAdded gops').map Mapping.bare ↔ x ∈ (stack (pre ++ (n, gAdded gops) :: post)).map Mapping.bare)
    (hg : (Generator.new file root skip).run E.url E.cfg gops = .ok g)
    (hg' : (Generator.new file' root skip').run E.url E.cfg gops' = .ok g') {u : Option String}
    {c₀ c d₀ d : BasicConsumer E} (hc : BasicConsumer.fromSourceMap g u = .ok (c₀, g₁))
    (hd : BasicConsumer.fromSourceMap g' u = .ok (d₀, g₁')) {ops ops' : List Op} (hrun : c₀.run ops = .ok c)
    (hrun' : d₀.run ops' = .ok d) (honce : OrigOnce ((gAdded gops).map (told E root u)))
    (hnd : c.getSources.Nodup) (hnd' : d.getSources.Nodup)
    {s t : String} {i i' : Nat} (hs : c.Knows s i) (hs' : d.Knows s i') (ht : c.getSources[i]? = some t)
    (ht' : d.getSources[i']? = some t)
    (halone : ∀ q ∈ pre ++ post, ∀ m ∈ q.2, ∀ src, m.source = some src → sourceUrl E root src u ≠ .ok t)
    {l col : Int} {b : Option Bias} (hp : IsI32 l ∧ IsI32 col) {r r' : Option Mapping} {c' d' : BasicConsumer E}
    (hr : c.generatedPositionFor s l col b = .ok (r, c')) (hr' : d.generatedPositionFor s l col b = .ok (r', d')) :
    r'.map Mapping.unnamed = r.map fun x => x.unnamed.down (height pre) := by
  obtain ⟨j, raws, N, hb, hseg, hnam, hlen, hfit, hmem⟩ := generator_told hJ file root skip gops g g₁ henc hS hN hg hc
  obtain ⟨j', raws', N', hb', hseg', hnam', hlen', hfit', hmem'⟩ :=
    generator_told hJ file' root skip' gops' g' g₁' henc' hS' hN' hg' hd
  have hst := C28_sources_stable hL hb hrun
  have hst' := C28_sources_stable hL hb' hrun'
  refine C116_generated hL hb hb' hseg hseg' hrun hrun' (by rw [hst]; exact hlen) (by rw [hst']; exact hlen')
    (by rw [hst]; exact hfit) (by rw [hst']; exact hfit') ?_ hnd hnd' hs hs' ht ht' ?_ hp hr hr'
  · rw [hst]
    intro a ha b hb
    obtain ⟨x, hx, rfl⟩ := (hmem a).1 ha
    obtain ⟨y, hy, rfl⟩ := (hmem b).1 hb
    exact honce _ (List.mem_map.2 ⟨x, hx, rfl⟩) _ (List.mem_map.2 ⟨y, hy, rfl⟩)
  · rw [hst, hst']
    intro y hy
    rw [hmem']
    have hnot : ∀ m q, q ∈ pre ++ post → ∀ x ∈ q.2, m.source = x.source → (told E root u m).source ≠ some t := by
      intro m q hq x hx e h
      simp only [told] at h
      obtain ⟨src, h1, h2⟩ := Option.bind_eq_some_iff.1 h
      refine halone q hq x hx src (by rw [← e]; exact h1) ?_
      cases hres : sourceUrl E root src u with
      | error e => rw [hres] at h2; cases h2
      | ok a => rw [hres] at h2; cases h2; rfl
    constructor
    · rintro ⟨m', hm', rfl⟩
      obtain ⟨m, hm, he⟩ := List.mem_map.1 ((hsame m'.bare).1 (List.mem_map.2 ⟨m', hm', rfl⟩))
      rw [← told_bare, ← he, told_bare] at hy ⊢
      rw [stack_append] at hm
      rcases List.mem_append.1 hm with hm | hm
      · obtain ⟨q, h1, x, h2, h3⟩ := stack_source hm
        exact absurd hy (hnot m q (by simp [h1]) x h2 h3)
      · obtain ⟨z, hz, rfl⟩ := List.mem_map.1 hm
        rcases List.mem_append.1 hz with hz | hz
        · exact ⟨told E root u z, (hmem _).2 ⟨z, hz, rfl⟩, rfl⟩
        · obtain ⟨w, hw, rfl⟩ := List.mem_map.1 hz
          obtain ⟨q, h1, x, h2, h3⟩ := stack_source hw
          exact absurd hy (hnot _ q (by simp [h1]) x h2 h3)
    · rintro ⟨x, hx, rfl⟩
      obtain ⟨m, hm, rfl⟩ := (hmem x).1 hx
      have : m.down (height pre) ∈ stack (pre ++ (n, gAdded gops) :: post) := by
        rw [stack_append]
        exact List.mem_append.2 (.inr (List.mem_map.2 ⟨m, List.mem_append.2 (.inl hm), rfl⟩))
      obtain ⟨m', hm', he⟩ := List.mem_map.1 ((hsame _).2 (List.mem_map.2 ⟨_, this, rfl⟩))
      exact ⟨m', hm', by rw [← told_bare E root u m', he]; rfl⟩

/-! ## A case: the two texts of C116 -/

/-- A consumer of a generator to which these mappings were added, asked. -/
def askOfAdded (ms : List Mapping) (f : BasicConsumer demoEnv → Res α) : Res α := do
  let g ← (Generator.new none none false).run demoEnv.url demoEnv.cfg (ms.map .add)
  let (c, _) ← BasicConsumer.fromSourceMap g none
  f c

/-- What it tells the callback of `each_mapping`. -/
def visitAdded (ms : List Mapping) : Option (List Mapping) :=
  (askOfAdded ms fun c => do
    let (l, c) ← c.eachMapping .generated
    pure (l.map fun x => named c.getSources (c.sourceMap.names.getD []) x.raw)).toOption

theorem upper_fine : Fine demoEnv.cfg upperText ∧ Fine demoEnv.cfg lowerText ∧
    Fine demoEnv.cfg (stack [(2, upperText), (3, lowerText)]) ∧ InText (2, upperText) ∧ InText (3, lowerText) ∧
    OrigOnce (lowerText.map (told demoEnv none none)) := by
  have e : stack [(2, upperText), (3, lowerText)] = upperText ++ lowerText.map (Mapping.down 2) := by simp [stack]
  have hu : ∀ m ∈ upperText, m.Encodable demoEnv.cfg := by
    intro m hm
    simp only [upperText, List.mem_cons, List.not_mem_nil, or_false] at hm
    rcases hm with rfl | rfl <;> exact ⟨by decide, by decide, rfl, by simp [Cfg.vlqLimit], by simp⟩
  have hl : ∀ m ∈ lowerText, m.Encodable demoEnv.cfg := by
    intro m hm
    simp only [lowerText, List.mem_cons, List.not_mem_nil, or_false] at hm
    rcases hm with rfl | rfl | rfl <;> exact ⟨by decide, by decide, rfl, by simp [Cfg.vlqLimit], by simp⟩
  have hd : ∀ m ∈ lowerText.map (Mapping.down 2), m.Encodable demoEnv.cfg := by
    intro m hm
    simp only [lowerText, List.map_cons, List.map_nil, List.mem_cons, List.not_mem_nil, or_false] at hm
    rcases hm with rfl | rfl | rfl <;>
      exact ⟨by decide, by decide, rfl, by simp [Cfg.vlqLimit, Mapping.down], by simp [Mapping.down]⟩
  rw [e]
  refine ⟨⟨hu, by decide, by decide, by decide⟩, ⟨hl, by decide, by decide, by decide⟩,
    ⟨fun m hm => (List.mem_append.1 hm).elim (hu m) (hd m), by decide, by decide, by decide⟩,
    by unfold InText; decide, by unfold InText; decide, ?_⟩
  unfold OrigOnce
  decide +kernel

/-- Visited alone and one below the other. -/
theorem C121_visit_case : visitAdded upperText = some upperText ∧ visitAdded lowerText = some lowerText ∧
    visitAdded (stack [(2, upperText), (3, lowerText)]) = some (stack [(2, upperText), (3, lowerText)]) := by
  refine ⟨?_, ?_, ?_⟩ <;> decide +kernel

/-- Asked where the original position (5, 0) of `two.js` is generated, alone and below the other text. -/
theorem C121_generated_case :
    (askOfAdded lowerText fun c => do pure (← c.generatedPositionFor "two.js" 5 0 none).1) =
      .ok (some ⟨⟨1, 2⟩, some ⟨4, 0⟩, some "two.js", some "k", none⟩) ∧
    (askOfAdded (stack [(2, upperText), (3, lowerText)]) fun c => do
        pure (← c.generatedPositionFor "two.js" 5 0 none).1) =
      .ok (some ⟨⟨3, 2⟩, some ⟨4, 0⟩, some "two.js", some "k", none⟩) := by
  constructor <;> decide +kernel

end RSM
