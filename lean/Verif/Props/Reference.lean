import Verif.Props.EndSession
import Verif.Props.Renumber
import Verif.Props.AllAdded
/-! # Property C127: from the calls of a generator to the answers of a consumer -/

namespace RSM
open Spec BasicConsumer

variable {E : Env}

/-- What may be answered to a call, given the sources and names in order of first use, the contents in the order of the sources they
are of, and the mappings, all without span ends. -/
def MayAnswer (sources names contents : List String) (added : List Mapping) : Op → RawAns → Prop
  | .spans, .unit => True
  | .content s _, .content r => r = contents[sources.idxOf s]?
  | .original p b, .mapping r =>
    ∃ o, Nearest Mapping.genAt added ((p.line - 1).toNat, p.column.toNat) (b.getD .glb) o ∧
      r = o.filter fun m => m.generated.line = p.line + 1 ∧ m.original.isSome
  | .generated s l k b, .mapping r =>
    ∃ o, Nearest Mapping.origAt (added.filter (·.source = some s)) ((l - 1).toNat, k.toNat) (b.getD .glb) o ∧
      r = o.map fun m => { m with name := names[sources.idxOf s]?, original := m.original.map fun p => ⟨p.line - 1, p.column⟩ }
  | .all s l k, .mappings rs =>
    let there := added.filter fun m => m.source = some s ∧ m.original = some ⟨l + 1, k.getD 0⟩
    (∀ m ∈ rs.map (named sources names), m ∈ added ∧ m.source = some s) ∧
      (there ≠ [] → ∀ m, m ∈ rs.map (named sources names) ↔ m ∈ there) ∧
      (there ≠ [] → added.Nodup → (rs.map (named sources names)).Perm there)
  | .each .generated, .mappings rs =>
    (∀ m, m ∈ rs.map (named sources names) ↔ m ∈ added) ∧ (added.Nodup → (rs.map (named sources names)).Perm added) ∧
      (rs.map (named sources names)).Pairwise fun a b => ¬ PLt b.genAt a.genAt
  | .each .original, .mappings rs =>
    (∀ m, m ∈ rs.map (named sources names) ↔ m ∈ added ∧ m.original.isSome) ∧
      (added.Nodup → (rs.map (named sources names)).Perm (added.filter (·.original.isSome))) ∧
      (rs.map (named sources names)).Pairwise fun a b => ∀ s t, a.source = some s → b.source = some t →
        sources.idxOf s < sources.idxOf t ∨ (s = t ∧ ¬ PLt b.origAt a.origAt)
  | _, _ => False

/-- The same, in terms of the calls of the generator. -/
def EndAnswers (gops : List GOp) : Op → RawAns → Prop :=
  let sources := firstOccurrences ((gAdded gops).filterMap Mapping.source)
  MayAnswer sources (firstOccurrences ((gAdded gops).filterMap Mapping.name))
    (sources.filterMap fun s => latestContent id s gops) ((gAdded gops).map Mapping.bare)

theorem answer_step {c : BasicConsumer E} {op : Op} {a : RawAns} (h : c.answer op = .ok a) :
    ∃ a' c', c.step op = .ok (a', c') ∧ a = a'.strip := by
  unfold BasicConsumer.answer at h
  cases hs : c.step op with
  | error e => rw [hs] at h; cases h
  | ok r => rw [hs] at h; cases h; exact ⟨r.1, r.2, rfl, rfl⟩

theorem reportGenerated_full {c : BasicConsumer E} {S N : List String} (ha : c.absoluteSources.array = S)
    (hS : S.length < 2147483648) (hN : c.sourceMap.names = some N) {n : Nat} {x : Option LibMapping}
    (hx : ∀ z, x = some z → Fits S N 2147483648 z.raw ∧ z.raw.fromSource n = true) {r : Option Mapping}
    (hr : c.reportGenerated n x = .ok r) :
    r.map stripMapping = ((x.map LibMapping.raw).map (named S N)).map
      fun m => { m with name := N[n]?, original := m.original.map fun p => ⟨p.line - 1, p.column⟩ } := by
  have h1 := reportGenerated_named ha hS hx hr
  cases x with
  | none => simp only [reportGenerated, Except.ok.injEq] at hr; subst hr; rfl
  | some z =>
    obtain ⟨⟨f1, f2, f3⟩, f4⟩ := hx z rfl
    obtain ⟨a1, a2, a3, a4⟩ := z
    simp only [LibMapping.raw] at f1 f2 f3 f4
    cases a4 with
    | none => simp [RawMapping.fromSource] at f4
    | some o =>
      simp only [RawMapping.fromSource, beq_iff_eq] at f4
      subst f4
      cases r with
      | none => simp at h1
      | some y =>
        have hname : y.name = N[o.source]? := by
          simp only [reportGenerated, unwrap, Res.ok_bind] at hr
          split at hr
          · simp only [Res.bind_eq_ok, Res.pure_eq, Except.ok.injEq, Option.some.injEq] at hr
            obtain ⟨_, _, nm, hnm, rfl⟩ := hr
            simp only [nameAt, hN, unwrap, Res.ok_bind, index] at hnm
            split at hnm
            · next e => cases hnm; exact e.symm
            · cases hnm
          · simp at hr
        simp only [Option.map_some, Option.some.injEq, Mapping.unnamed, answerGenerated, stripMapping, Mapping.mk.injEq] at h1 ⊢
        obtain ⟨b1, b2, b3, _, _⟩ := h1
        exact ⟨b1, b2, b3, hname, rfl⟩

theorem perm_named {S N : List String} {raws : List RawMapping} {ms : List Mapping} (h : List.Forall₂ (Denotes S N) raws ms) :
    raws.map (named S N) = ms.map Mapping.bare := by
  induction h with
  | nil => rfl
  | cons h _ ih =>
    rw [List.map_cons, List.map_cons, ih]
    congr 1
    exact (denotes_named (m := Mapping.bare _) h rfl).symm

/-- The call, asking for the source that `f` gives instead of the one it asks for. -/
def BasicConsumer.Op.via (f : String → String) : Op → Op
  | .generated s l k b => .generated (f s) l k b
  | .all s l k => .all (f s) l k
  | .content s p => .content (f s) p
  | op => op

theorem BasicConsumer.Op.via_id (op : Op) : op.via id = op := by cases op <;> rfl

/-- One call to a consumer, in terms of the mappings its segments stand for; `f` gives the source of the map meant by a source that
is asked for. -/
theorem may_answer (hL : E.maps.Laws) (hT : E.maps.Total) {j : SourceMapJson} {u : Option String} {c : BasicConsumer E}
    (hb : Built j u c) (f : String → String)
    {raws : List RawMapping} (hseg : j.Segments raws) {S N C : List String} (hnam : j.names = some N) (hnd : S.Nodup)
    (hgs : c.getSources = S) (hlen : S.length < 2147483648) (hfit : ∀ x ∈ raws, Fits S N 2147483648 x)
    (hcont : j.sourcesContent = some C ∨ (j.sourcesContent = none ∧ C = [])) (hC : C.length ≤ S.length)
    {L : List Mapping} (hmem : ∀ y, y ∈ raws.map (named S N) ↔ y ∈ L) (hperm : L.Nodup → (raws.map (named S N)).Perm L)
    {op : Op} (hr : op.InRange) (hunk : ∀ s, op.asked = some s → (c.Unknown s ↔ f s ∉ S))
    (hkn : ∀ s, op.asked = some s → ∀ n, c.Knows s n ↔ f s ∈ S ∧ S.idxOf (f s) = n) {a : RawAns} (ha : c.answer op = .ok a) :
    MayAnswer S N C L (op.via f) a := by
  have hrun : c.run [] = .ok c := rfl
  have hsm : c.sourceMap = j := by obtain ⟨_, _, _, _, _, _, hm, _⟩ := hb.spec; exact hm
  have hneeds := (C122_call hL hT hb hseg hnam (by rw [hgs]; exact hlen) (by rw [hgs]; exact hfit) hr).1 ⟨a, ha⟩
  obtain ⟨a', c', hs, rfl⟩ := answer_step ha
  have hnoS : ∀ s, s ∉ S → ∀ y ∈ L, y.source ≠ some s := by
    intro s hs y hy e
    obtain ⟨x, hx, rfl⟩ := List.mem_map.1 ((hmem y).2 hy)
    simp only [named] at e
    cases ho : x.original with
    | none => rw [ho] at e; cases e
    | some o =>
      rw [ho] at e
      exact hs (List.mem_iff_getElem?.2 ⟨_, e⟩)
  have hsome : ∀ x : RawMapping, (named S N x).original.isSome = x.original.isSome := by
    intro x; simp [named]
  cases op with
  | spans =>
    simp only [BasicConsumer.step, Res.bind_eq_ok, Res.pure_eq, Except.ok.injEq, Prod.mk.injEq] at hs
    obtain ⟨_, _, rfl, _⟩ := hs
    trivial
  | content s p =>
    simp only [BasicConsumer.step, Res.bind_eq_ok, Res.pure_eq, Except.ok.injEq, Prod.mk.injEq] at hs
    obtain ⟨⟨r, c1⟩, hr', rfl, _⟩ := hs
    simp only [Ans.strip, BasicConsumer.Op.via, MayAnswer]
    rcases content_ok hb.rel hr' with ⟨h1, h2, _⟩ | ⟨contents, i, q, h1, h2, _, _, h5⟩
    · rw [hsm] at h1
      rcases hcont with h | ⟨_, rfl⟩
      · rw [h1] at h; cases h
      · simpa using h2
    · rw [hsm] at h1
      rcases hcont with h | ⟨h, _⟩
      · rw [h1] at h
        cases h
        obtain ⟨l1, l2⟩ := lookup_spec hb (by rw [hgs]; exact hlen) s
        rcases h5 with ⟨rfl, _, rfl⟩ | ⟨i', t, rfl, h6, rfl⟩
        · have hs := (hunk s rfl).1 (l2.1 h2)
          rw [List.idxOf_eq_length hs, List.getElem?_eq_none hC]
        · obtain ⟨n, rfl, hn⟩ := (l1 i').1 h2
          obtain ⟨hs, rfl⟩ := (hkn s rfl n).1 hn
          have hlt := List.idxOf_lt_length_iff.2 hs
          have hu : E.cfg.asUsize ((S.idxOf (f s) : Nat) : Int) = S.idxOf (f s) := by
            unfold Cfg.asUsize; split <;> omega
          rw [hu] at h6
          exact h6.symm
      · rw [h1] at h; cases h
  | original p b =>
    simp only [BasicConsumer.step, Res.bind_eq_ok, Res.pure_eq, Except.ok.injEq, Prod.mk.injEq] at hs
    obtain ⟨⟨r, c1⟩, hr', rfl, _⟩ := hs
    simp only [BasicConsumer.Needs] at hneeds
    simp only [BasicConsumer.Op.InRange, IsI32] at hr
    obtain ⟨x, nx, ex⟩ := original_answer hL hT hb hrun hseg (p := p) (by omega) (by omega) b
    rw [hr'] at ex
    have r1 := reportOriginal_named (c := c) (S := S) (N := N) hgs hlen (by rw [hsm]; exact hnam) (line := p.line)
      (x := x) (fun z hz => by
        subst hz; simp only [Option.map_some, Nearest] at nx; exact hfit _ nx.1)
    rw [← ex] at r1
    simp only [Except.map, Except.ok.injEq] at r1
    refine ⟨_, Nearest.congr hmem (nx.mapped (pos' := Mapping.genAt) (named S N) (fun a _ => named_genAt _ _ a)), ?_⟩
    rw [r1]
    cases x with
    | none => rfl
    | some z =>
      simp only [Option.map_some, Option.bind_some, answerOriginal, Option.filter_some]
      by_cases h : (named S N z.raw).generated.line = p.line + 1 ∧ (named S N z.raw).original.isSome
      · rw [if_pos ⟨by omega, h.2⟩, if_pos (by simpa using h)]
      · rw [if_neg fun h' => h ⟨by omega, h'.2⟩, if_neg (by simpa using h)]
  | generated s l k b =>
    simp only [BasicConsumer.step, Res.bind_eq_ok, Res.pure_eq, Except.ok.injEq, Prod.mk.injEq] at hs
    obtain ⟨⟨r, c1⟩, hr', rfl, _⟩ := hs
    simp only [Ans.strip, BasicConsumer.Op.via, MayAnswer]
    by_cases hin : f s ∈ S
    · have hk := (hkn s rfl _).2 ⟨hin, rfl⟩
      obtain ⟨_, _, x, nx, hx⟩ := generated_report (hL := hL) hb hrun hseg (by rw [hgs]; exact hlen) hk hr hr'
      have r1 := reportGenerated_full (c := c) (S := S) (N := N) hgs hlen (by rw [hsm]; exact hnam) (fun z hz => by
        subst hz
        simp only [Option.map_some, Nearest] at nx
        obtain ⟨m1, m2⟩ := List.mem_filter.1 nx.1
        exact ⟨hfit _ m1, m2⟩) hx
      refine ⟨_, Nearest.congr (fun y => ?_)
        (nx.mapped (pos' := Mapping.origAt) (named S N) (fun a _ => named_origAt _ _ a)), r1⟩
      rw [mem_named_filter hfit hnd (first_idxOf hin).1, hmem, List.mem_filter]
      simp
    · obtain ⟨_, e1⟩ := (C35_unknown hL hb hrun (by rw [hgs]; exact hlen) ((hunk s rfl).2 hin) l k b).2
      rw [hr'] at e1
      cases e1
      have hnil : L.filter (fun m => decide (m.source = some (f s))) = [] := by
        rw [List.filter_eq_nil_iff]
        intro y hy
        simpa using hnoS (f s) hin y hy
      exact ⟨none, by rw [hnil]; simp [Nearest], rfl⟩
  | all s l k =>
    simp only [BasicConsumer.step, Res.bind_eq_ok, Res.pure_eq, Except.ok.injEq, Prod.mk.injEq] at hs
    obtain ⟨⟨r, c1⟩, hr', rfl, _⟩ := hs
    have hr' : c.allGeneratedPositionFor s l (some (k.getD 0)) = .ok (r, c1) := by
      cases k <;> exact hr'
    simp only [Ans.strip, BasicConsumer.Op.via, MayAnswer]
    by_cases hin : f s ∈ S
    · have hk := (hkn s rfl _).2 ⟨hin, rfl⟩
      have hpos : 1 ≤ l ∧ 0 ≤ k.getD 0 := by
        rcases hneeds with h | ⟨_, _, h⟩
        · exact absurd hin ((hunk s rfl).1 h)
        · exact h
      obtain ⟨h1, h2⟩ := (C35_all_generated_partial hL hb hrun hseg (by rw [hgs]; exact hlen) hk hr hpos).1 r c1 hr'
      have hpq : ∀ x ∈ raws, ((x.fromSource (S.idxOf (f s)) && decide (x.origPos = (l.toNat, (k.getD 0).toNat))) =
          decide ((named S N x).source = some (f s) ∧ (named S N x).original = some ⟨l + 1, k.getD 0⟩)) := by
        intro x hx
        have hd : Denotes S N x (named S N x) := named_denotes (hfit x hx)
        rw [Bool.eq_iff_iff]
        simp only [Bool.and_eq_true, decide_eq_true_eq]
        rw [denotes_source hnd hd (first_idxOf hin).1]
        refine and_congr_right fun hsrc => ?_
        cases ho : x.original with
        | none => simp [named, ho] at hsrc
        | some o =>
          simp only [Spec.RawMapping.origPos, named, ho, Option.map_some, Prod.mk.injEq, Option.some.injEq, Position.mk.injEq]
          omega
      have hfm : ((raws.filter fun x => x.fromSource (S.idxOf (f s)) && decide (x.origPos = (l.toNat, (k.getD 0).toNat))).map
          (named S N)) = (raws.map (named S N)).filter fun m => decide (m.source = some (f s) ∧ m.original = some ⟨l + 1, k.getD 0⟩) := by
        rw [List.filter_map]
        congr 1
        exact List.filter_congr hpq
      have hthere : (L.filter fun m => decide (m.source = some (f s) ∧ m.original = some ⟨l + 1, k.getD 0⟩)) ≠ [] →
          ((r.map LibMapping.raw).map (named S N)).Perm
            ((raws.map (named S N)).filter fun m => decide (m.source = some (f s) ∧ m.original = some ⟨l + 1, k.getD 0⟩)) := by
        intro hne
        obtain ⟨y, hy⟩ := List.exists_mem_of_ne_nil _ hne
        obtain ⟨y1, y2⟩ := List.mem_filter.1 hy
        obtain ⟨x, hx, rfl⟩ := List.mem_map.1 ((hmem y).2 y1)
        rw [← hpq x hx] at y2
        rw [← hfm]
        refine (h1 ⟨x, hx, ?_⟩).map _
        simpa using y2
      refine ⟨?_, fun hne m => ?_, fun hne hn => ?_⟩
      · intro m hm
        rw [List.map_map] at hm
        obtain ⟨x, hx, rfl⟩ := List.mem_map.1 hm
        obtain ⟨q1, q2⟩ := h2 x hx
        refine ⟨(hmem _).1 (List.mem_map.2 ⟨_, q1, rfl⟩), ?_⟩
        exact (denotes_source hnd (named_denotes (hfit _ q1)) (first_idxOf hin).1).1 q2
      · rw [(hthere hne).mem_iff, List.mem_filter, hmem, List.mem_filter]
      · exact (hthere hne).trans ((hperm hn).filter _)
    · obtain ⟨_, e1⟩ := (C35_unknown hL hb hrun (by rw [hgs]; exact hlen) ((hunk s rfl).2 hin) l (k.getD 0) none).1
      rw [hr'] at e1
      cases e1
      have hnil : (L.filter fun m => decide (m.source = some (f s) ∧ m.original = some ⟨l + 1, k.getD 0⟩)) = [] := by
        rw [List.filter_eq_nil_iff]
        intro y hy
        have := hnoS (f s) hin y hy
        simp [this]
      refine ⟨by simp, fun h => absurd hnil h, fun h => absurd hnil h⟩
  | each o =>
    simp only [BasicConsumer.step, Res.bind_eq_ok, Res.pure_eq, Except.ok.injEq, Prod.mk.injEq] at hs
    obtain ⟨⟨r, c1⟩, hr', rfl, _⟩ := hs
    cases o with
    | generated =>
      obtain ⟨l, _, e1, p1, s1⟩ := C36_each_generated hL hb hrun hseg
      rw [hr'] at e1
      cases e1
      refine ⟨fun m => ?_, fun hn => ?_, ?_⟩
      · rw [(p1.map _).mem_iff, hmem]
      · exact (p1.map _).trans (hperm hn)
      · rw [List.pairwise_map]
        refine s1.imp ?_
        intro a b hab
        rw [named_genAt, named_genAt]
        unfold PLt RawMapping.genPos
        simp only
        omega
    | original =>
      obtain ⟨p1, s1⟩ := (C36_each_original hL hb hrun hseg).1 r c1 hr'
      have hfm : (raws.filter (·.original.isSome)).map (named S N) = (raws.map (named S N)).filter (·.original.isSome) := by
        rw [List.filter_map]
        congr 1
        exact List.filter_congr fun x _ => (hsome x).symm
      have p2 := p1.map (named S N)
      rw [hfm] at p2
      refine ⟨fun m => ?_, fun hn => ?_, ?_⟩
      · rw [p2.mem_iff, List.mem_filter, hmem]
      · exact p2.trans ((hperm hn).filter _)
      · rw [List.pairwise_map]
        refine s1.imp_of_mem ?_
        intro x y hx hy hxy s t e1 e2
        simp only [named] at e1 e2
        cases o1 : x.original with
        | none => rw [o1] at e1; cases e1
        | some o =>
          cases o2 : y.original with
          | none => rw [o2] at e2; cases e2
          | some q =>
            rw [o1, Option.bind_some] at e1
            rw [o2, Option.bind_some] at e2
            have hidx : ∀ (i : Nat) (s : String), S[i]? = some s → S.idxOf s = i := by
              intro i s h
              obtain ⟨hi, rfl⟩ := List.getElem?_eq_some_iff.1 h
              exact hnd.idxOf_getElem i hi
            rw [hidx _ _ e1, hidx _ _ e2, named_origAt, named_origAt]
            rcases hxy o q o1 o2 with h | ⟨h, h'⟩
            · exact .inl h
            · rw [h, e2] at e1
              refine .inr ⟨(Option.some.inj e1).symm, ?_⟩
              simp only [PLt, RawMapping.origPos, o1, o2]
              omega

/-- C127: a program builds a map without source root and asks it. Whatever it asked before, and whatever else the calls of the
generator were, the answer to a call is one that what was added and set allows; span ends apart. -/
theorem C127_answers (hJ : E.json.Laws) (hU : E.url.Laws) (hL : E.maps.Laws) (hT : E.maps.Total) (file : Option String)
    (skip : Bool) (gops : List GOp) (henc : ∀ m ∈ gAdded gops, m.Encodable E.cfg)
    (hS : (firstOccurrences ((gAdded gops).filterMap Mapping.source)).length < E.cfg.vlqLimit)
    (hN : (firstOccurrences ((gAdded gops).filterMap Mapping.name)).length < E.cfg.vlqLimit)
    (hplain : ∀ m ∈ gAdded gops, ∀ s, m.source = some s → PlainUrl s.toList s.toList) :
    ∃ (g g' : Generator) (c : BasicConsumer E), (Generator.new file none skip).run E.url E.cfg gops = .ok g ∧
      BasicConsumer.fromSourceMap g none = .ok (c, g') ∧
      ∀ ops : List Op, (∀ op ∈ ops, op.InRange ∧ ∀ s, op.asked = some s → PlainUrl s.toList s.toList) →
        ∀ l, c.session ops = .ok l → List.Forall₂ (fun op a => EndAnswers gops op a.strip) ops l := by
  have hlim := E.cfg.vlqLimit_le
  obtain ⟨g, g', c, hg, hc, hsame⟩ := C59_returns (E := E) hJ hU file skip gops henc hS hN
    (fun m hm s hs => ⟨_, hplain m hm s hs⟩)
  refine ⟨g, g', c, hg, hc, fun ops hops l hl => ?_⟩
  obtain ⟨j, hj, hb'⟩ := generator_json hJ hc
  obtain ⟨j', raws, hb, hseg, hroot, hsrcs, hnam, hsound, hcomplete, _⟩ :=
    generator_built hJ file none skip gops g g' henc hS hN hg hc
  obtain ⟨j'', raws', ms, hb'', hseg'', _, h5, h6, h7, h8⟩ := generator_pairs hJ file none skip gops g g' henc hS hN hg hc
  have hgs := hsame hplain
  have hjj : j' = j := by
    obtain ⟨_, _, _, _, _, _, h1, _⟩ := hb.spec
    obtain ⟨_, _, _, _, _, _, h2, _⟩ := hb'.spec
    rw [← h1, ← h2]
  have hjj' : j'' = j := by
    obtain ⟨_, _, _, _, _, _, h1, _⟩ := hb''.spec
    obtain ⟨_, _, _, _, _, _, h2, _⟩ := hb'.spec
    rw [← h1, ← h2]
  subst hjj
  subst hjj'
  have hrr : raws' = raws := by
    obtain ⟨_, e1, e2, _⟩ := hseg
    obtain ⟨_, e3, e4, _⟩ := hseg''
    rw [e1] at e3
    cases e3
    rw [e2] at e4
    exact (Option.some.inj e4).symm
  subst hrr
  have hcont := C22_latest_content E.url E.cfg file skip gops g g' _ hg hj
  have hurl : c.sourceMapUrl = none := stored_none hb hL (ops := []) rfl
  have hsm : c.sourceMap.sourceRoot = none := by
    obtain ⟨_, _, _, _, _, _, hm, _⟩ := hb.spec
    rw [hm, hroot]
  have hses := C122_session hL hT hb ops
  rw [hl] at hses
  have key : ∀ op ∈ ops, ∀ a, c.answer op = .ok a → EndAnswers gops op a := by
    intro op hop a ha
    have hsrc : ∀ s, op.asked = some s → sourceUrl E none s none = .ok s := by
      intro s hs
      have := sourceUrl_plain (E := E) (((hops op hop).2 s hs).normalize hU)
      rwa [String.ofList_toList] at this
    rw [← op.via_id]
    refine may_answer hL hT hb id hseg hnam (nodup_firstOccurrences _) hgs (by omega)
      (fun x hx => by
        obtain ⟨m, hm, hden⟩ := hsound x hx
        exact denotes_fits (henc m hm) hden rfl) ?_ (List.length_filterMap_le _ _) ?_ ?_ (hops op hop).1 ?_ ?_ ha
    · by_cases hh : ∃ t, latestContent id t gops ≠ none
      · exact .inl (hcont.1 hh)
      · have hh' : ∀ t, latestContent id t gops = none := fun t => Classical.byContradiction fun h => hh ⟨t, h⟩
        exact .inr ⟨hcont.2 hh', by simp [hh']⟩
    · intro y
      constructor
      · intro hy
        obtain ⟨x, hx, rfl⟩ := List.mem_map.1 hy
        obtain ⟨m, hm, hden⟩ := hsound x hx
        exact List.mem_map.2 ⟨m, hm, denotes_named (m := m.bare) hden rfl⟩
      · intro hy
        obtain ⟨m, hm, rfl⟩ := List.mem_map.1 hy
        obtain ⟨x, hx, hden⟩ := hcomplete m hm
        exact List.mem_map.2 ⟨x, hx, (denotes_named (m := m.bare) hden rfl).symm⟩
    · intro hn
      rw [perm_named h5]
      refine (h8 ?_).map _
      have hn' := (List.pairwise_map.1 hn)
      refine hn'.imp fun {a b} hab hk => hab ?_
      obtain ⟨k1, k2, k3, k4⟩ := hk
      obtain ⟨a1, a2, a3, a4, a5⟩ := a
      obtain ⟨b1, b2, b3, b4, b5⟩ := b
      simp only at k1 k2 k3 k4
      simp only [Mapping.bare, k1, k2, k3, k4]
    · intro s hs
      unfold BasicConsumer.Unknown
      rw [hurl, hsm, hgs, hsrc s hs]
      exact ⟨fun ⟨t, t', e, h, _⟩ => by cases e; exact h, fun h => ⟨s, s, rfl, h, rfl, h⟩⟩
    · intro s hs n
      unfold BasicConsumer.Knows
      rw [hurl, hsm, hgs, hsrc s hs]
      constructor
      · rintro (⟨t, e, h⟩ | ⟨t, t', e, h, e', h'⟩)
        · cases e
          exact ⟨List.mem_iff_getElem?.2 ⟨n, h.1⟩, idxOf_first h⟩
        · cases e; cases e'
          exact absurd (List.mem_iff_getElem?.2 ⟨n, h'.1⟩) h
      · rintro ⟨h, rfl⟩
        exact .inl ⟨s, rfl, first_idxOf h⟩
  clear hl hops
  induction ops generalizing l with
  | nil =>
    cases l with
    | nil => exact .nil
    | cons a l => simp [Except.map, pure, Except.pure] at hses
  | cons op ops ih =>
    rw [List.mapM_cons] at hses
    cases ha : c.answer op with
    | error e => rw [ha] at hses; cases hses
    | ok a =>
      rw [ha, Res.ok_bind] at hses
      cases hm : ops.mapM c.answer with
      | error e => rw [hm] at hses; cases hses
      | ok as =>
        rw [hm, Res.ok_bind] at hses
        cases l with
        | nil => simp [Except.map, pure, Except.pure] at hses
        | cons x l =>
          simp only [Except.map, List.map_cons, Res.pure_eq, Except.ok.injEq, List.cons.injEq] at hses
          obtain ⟨rfl, rfl⟩ := hses
          refine .cons (key op (by simp) _ ha) (ih l (by rw [hm]; rfl) fun o ho => key o (by simp [ho]))

/-- The call asks for one thing, not for a list. -/
def BasicConsumer.Op.Single : Op → Prop
  | .each _ => False
  | .all _ _ _ => False
  | _ => True

/-- C127, what is determined: if no two different mappings were added for one generated position, and no two for one position of one
source, then only one answer is allowed to a call that asks for one thing. -/
theorem C127_unique {cfg : Cfg} {gops : List GOp} (henc : ∀ m ∈ gAdded gops, m.Encodable cfg)
    (hgen : GenOnce ((gAdded gops).map Mapping.bare)) (horig : OrigOnce ((gAdded gops).map Mapping.bare)) {op : Op} (hop : op.Single)
    {a a' : RawAns} (h : EndAnswers gops op a) (h' : EndAnswers gops op a') : a = a' := by
  have hb : ∀ y ∈ (gAdded gops).map Mapping.bare, y.Encodable cfg := by
    intro y hy
    obtain ⟨m, hm, rfl⟩ := List.mem_map.1 hy
    obtain ⟨e1, e2, e3, e4, e5⟩ := henc m hm
    exact ⟨e1, e2, e3, e4, e5⟩
  unfold EndAnswers at h h'
  cases op with
  | each o => cases hop
  | all s l k => cases hop
  | spans =>
    cases a with
    | unit =>
      cases a' with
      | unit => rfl
      | _ => exact False.elim h'
    | _ => exact False.elim h
  | content s p =>
    cases a with
    | content r =>
      cases a' with
      | content r' => exact congrArg _ (Eq.trans h (Eq.symm h'))
      | _ => exact False.elim h'
    | _ => exact False.elim h
  | original p b =>
    cases a with
    | mapping r =>
      cases a' with
      | mapping r' =>
        obtain ⟨o, n1, rfl⟩ := h
        obtain ⟨o', n2, rfl⟩ := h'
        rw [Nearest.unique (fun a ha b hb' hab => hgen a ha b hb' ?_) n1 n2]
        have ea := hb a ha
        have eb := hb b hb'
        have q1 := ea.line
        have q2 := eb.line
        have q3 := ea.column
        have q4 := eb.column
        obtain ⟨⟨a1, a2⟩, a3, a4, a5, a6⟩ := a
        obtain ⟨⟨b1, b2⟩, b3, b4, b5, b6⟩ := b
        simp only [Mapping.genAt, Prod.mk.injEq, Position.mk.injEq] at hab q1 q2 q3 q4 ⊢
        omega
      | _ => exact False.elim h'
    | _ => exact False.elim h
  | generated s l k b =>
    cases a with
    | mapping r =>
      cases a' with
      | mapping r' =>
        obtain ⟨o, n1, rfl⟩ := h
        obtain ⟨o', n2, rfl⟩ := h'
        rw [Nearest.unique (fun a ha b hb' hab => ?_) n1 n2]
        obtain ⟨ha, sa⟩ := List.mem_filter.1 ha
        obtain ⟨hb', sb⟩ := List.mem_filter.1 hb'
        simp only [decide_eq_true_eq] at sa sb
        have ea := hb a ha
        have eb := hb b hb'
        have oa : a.original.isSome := by rw [ea.orig, sa]; rfl
        have ob : b.original.isSome := by rw [eb.orig, sb]; rfl
        refine horig a ha b hb' oa (sa.trans sb.symm) ?_
        obtain ⟨⟨x1, x2⟩, hx⟩ := Option.isSome_iff_exists.1 oa
        obtain ⟨⟨y1, y2⟩, hy⟩ := Option.isSome_iff_exists.1 ob
        have q1 := ea.range _ hx
        have q2 := eb.range _ hy
        simp only [Mapping.origAt, hx, hy, Prod.mk.injEq] at hab
        simp only at q1 q2
        rw [hx, hy, Option.some.injEq, Position.mk.injEq]
        omega
      | _ => exact False.elim h'
    | _ => exact False.elim h

/-- Nothing added to `endOps` twice (what the theorems above ask for besides is in `C125_case`), and what is and what is not
allowed: the content of `a.js` for `b.js`, and no other; the mapping of the line after the one asked, and not none; the nearest
mapping with the name that has the number of the source, and not with its own. -/
theorem C127_case : GenOnce ((gAdded endOps).map Mapping.bare) ∧ OrigOnce ((gAdded endOps).map Mapping.bare) ∧
    (EndAnswers endOps (.content "b.js" none) (.content (some "x")) ∧
      ¬ EndAnswers endOps (.content "b.js" none) (.content none)) ∧
    (EndAnswers endOps (.original ⟨3, 6⟩ (some .lub)) (.mapping (some ⟨⟨4, 0⟩, some ⟨1, 0⟩, some "a.js", none, none⟩)) ∧
      ¬ EndAnswers endOps (.original ⟨3, 6⟩ (some .lub)) (.mapping none)) ∧
    (EndAnswers endOps (.generated "a.js" 1 3 none) (.mapping (some ⟨⟨4, 0⟩, some ⟨0, 0⟩, some "a.js", some "bar", none⟩)) ∧
      ¬ EndAnswers endOps (.generated "a.js" 1 3 none) (.mapping (some ⟨⟨4, 0⟩, some ⟨1, 0⟩, some "a.js", none, none⟩))) := by
  have hg : GenOnce ((gAdded endOps).map Mapping.bare) := by unfold GenOnce; decide +kernel
  have ho : OrigOnce ((gAdded endOps).map Mapping.bare) := by unfold OrigOnce; decide +kernel
  have e1 : firstOccurrences ((gAdded endOps).filterMap Mapping.source) = ["b.js", "a.js"] := by decide +kernel
  have e2 : firstOccurrences ((gAdded endOps).filterMap Mapping.name) = ["foo", "bar"] := by decide +kernel
  have hu : ∀ {op : Op} {a a' : RawAns}, op.Single → a ≠ a' → EndAnswers endOps op a →
      EndAnswers endOps op a ∧ ¬ EndAnswers endOps op a' := fun hop hne h =>
    ⟨h, fun h' => hne (C127_unique (gops := endOps) (cfg := ⟨true, true⟩) revOps_enc hg ho hop h h')⟩
  refine ⟨hg, ho, hu trivial (by simp) ?_, hu trivial (by simp) ?_, hu trivial (by simp) ?_⟩
  · simp only [EndAnswers, MayAnswer, e1]
    decide +kernel
  · simp only [EndAnswers, MayAnswer, e1, e2]
    refine ⟨some ⟨⟨4, 0⟩, some ⟨1, 0⟩, some "a.js", none, none⟩, ?_, by decide +kernel⟩
    simp only [Nearest, Option.getD]
    decide +kernel
  · simp only [EndAnswers, MayAnswer, e1, e2]
    refine ⟨some ⟨⟨4, 0⟩, some ⟨1, 0⟩, some "a.js", none, none⟩, ?_, by decide +kernel⟩
    simp only [Nearest, Option.getD]
    decide +kernel

end RSM
