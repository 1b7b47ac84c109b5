import Verif.Props.BundleReference
import Verif.Props.Located
/-! # Property C130: indexed maps of parts with source roots, read with a map URL -/

namespace RSM
open Spec IndexedConsumer

variable {E : Env}

/-- One part of an indexed map: where it begins in the generated file, line and column counted from 0, and the generator that wrote
its map: with this source root and this history. -/
structure Piece where
  offset : Position
  file : Option String := none
  root : Option String := none
  skip : Bool := false
  ops : List GOp

namespace Piece

/-- The sources of the mappings, in the order of first use. -/
def sources (p : Piece) : List String := firstOccurrences ((gAdded p.ops).filterMap Mapping.source)

/-- The names of the mappings, in the order of first use. -/
def names (p : Piece) : List String := firstOccurrences ((gAdded p.ops).filterMap Mapping.name)

/-- The sources as they are located with the source root of the part and the URL of the whole map. -/
def located (E : Env) (u : Option String) (p : Piece) : List String :=
  p.sources.filterMap fun s => (sourceUrl E p.root s u).toOption

/-- The key under which the content of a source is kept. -/
def key (E : Env) (p : Piece) (s : String) : String := (Generator.contentKey E.url p.root s).toOption.getD s

/-- The contents the map gets: those there are, in the order of the sources. -/
def contents (E : Env) (p : Piece) : List String := p.sources.filterMap fun s => latestContent (p.key E) s p.ops

/-- Some content is held at the end of the calls of the part. -/
def Held (E : Env) (p : Piece) : Prop := ∃ s, latestContent (p.key E) s p.ops ≠ none

/-- The map of the part. -/
def Writes (E : Env) (p : Piece) (j : SourceMapJson) : Prop :=
  ∃ g g', (Generator.new p.file p.root p.skip).run E.url E.cfg p.ops = .ok g ∧ g.asJson E.url E.cfg = .ok (j, g')

/-- Mappings that can be encoded, sources that can be located, at different places, contents that can be looked up, an offset in
range. -/
structure Good (E : Env) (u : Option String) (p : Piece) : Prop where
  enc : ∀ m ∈ gAdded p.ops, m.Encodable E.cfg
  few : p.sources.length < E.cfg.vlqLimit
  fewNames : p.names.length < E.cfg.vlqLimit
  urls : ∀ s ∈ p.sources, ∃ t, sourceUrl E p.root s u = .ok t
  apart : (p.located E u).Nodup
  keys : ∀ s, s ∈ p.sources ∨ (∃ v, GOp.setContent s v ∈ p.ops) → ∃ t, Generator.contentKey E.url p.root s = .ok t
  line : 0 ≤ p.offset.line ∧ p.offset.line < 2147483647
  column : 0 ≤ p.offset.column ∧ p.offset.column < 2147483647

/-- The part begins before the position (which counts lines from 1, columns from 0). -/
def Before (t : Piece) (p : Position) : Prop := (Position.mk (t.offset.line + 1) (t.offset.column + 1)).Le p

/-- The position within the part. -/
def within (t : Piece) (p : Position) : Position :=
  ⟨p.line - t.offset.line, if t.offset.line + 1 = p.line then p.column - t.offset.column else p.column⟩

/-- What may be found in the map of the part, in terms of what was added, with the sources as they are located. -/
def Finds (E : Env) (u : Option String) (t : Piece) (p : Position) (b : Option Bias) (r : Option Mapping) : Prop :=
  ∃ o, Nearest Mapping.genAt ((gAdded t.ops).map (told E t.root u)) ((p.line - 1).toNat, p.column.toNat) (b.getD .glb) o ∧
    r = o.filter fun m => m.generated.line = p.line + 1 ∧ m.original.isSome

/-- The location that asking for `s` means in the part. The URL of the whole map has no influence on it. -/
def Seeks (E : Env) (u : Option String) (t : Piece) (s l : String) : Prop :=
  ∃ t₀ t₁, sourceUrl E none s none = .ok t₀ ∧ sourceUrl E t.root s none = .ok t₁ ∧ l = if t₀ ∈ t.located E u then t₀ else t₁

end Piece

/-- The part with number `i` is the one asked for a position: of those that begin before it the last, and of several with one
offset the first. -/
structure PieceAsked (parts : List Piece) (p : Position) (i : Nat) (t : Piece) : Prop where
  get : parts[i]? = some t
  before : t.Before p
  last : ∀ q ∈ parts, q.Before p → q.offset.Le t.offset
  first : ∀ j q, parts[j]? = some q → q.offset = t.offset → i ≤ j

/-- What may be found for a position. -/
def PiecesFind (E : Env) (u : Option String) (parts : List Piece) (p : Position) (b : Option Bias) (r : Option Mapping) : Prop :=
  ((∀ t ∈ parts, ¬ t.Before p) ∧ r = none) ∨ ∃ i t, PieceAsked parts p i t ∧ t.Finds E u (t.within p) b r

open Classical in
/-- What `source_content_for` answers, `none` for a panic; `seek` is what asking for the source means in each part. -/
noncomputable def pieceContent (E : Env) (u : Option String) (seek : Piece → String) (quiet : Option Bool) :
    List Piece → Option (Option String)
  | [] => if quiet = some false then some none else none
  | p :: parts =>
    if ¬ p.Held E then pieceContent E u seek quiet parts
    else if seek p ∈ p.located E u then ((p.contents E)[(p.located E u).idxOf (seek p)]?).map some
    else if quiet = some false then pieceContent E u seek quiet parts
    else none

/-- What a call needs in order to return. -/
def PiecesNeed (E : Env) (u : Option String) (seek : String → Piece → String) (parts : List Piece) : IndexedConsumer.Op → Prop
  | .original _ _ => True
  | .spans => True
  | .content s q => pieceContent E u (seek s) q parts ≠ none
  | .generated _ _ _ _ => parts = []
  | .all _ _ _ => parts = []
  | .each _ => parts = []

/-- What may be answered to a call; the ends of spans apart. -/
def PiecesAnswer (E : Env) (u : Option String) (seek : String → Piece → String) (parts : List Piece) :
    IndexedConsumer.Op → IndexedConsumer.Ans → Prop
  | .content s q, .content r => pieceContent E u (seek s) q parts = some r
  | .original p b, .mapping r => PiecesFind E u parts p b (r.map BasicConsumer.stripMapping)
  | .generated _ _ _ _, .position r => parts = [] ∧ r = none
  | .all _ _ _, .mappings r => parts = [] ∧ r = []
  | .each _, .mappings r => parts = [] ∧ r = []
  | .spans, .unit => True
  | _, _ => False

/-- The sections. -/
def pieceSections (parts : List Piece) (js : List SourceMapJson) : List (JsonSection SourceMapJson) :=
  List.zipWith (fun p j => ⟨p.offset, j, none⟩) parts js

/-- The indexed map. -/
def assembled (file : Option String) (parts : List Piece) (js : List SourceMapJson) : SourceMapJson :=
  { version := 3, file := file, sections := some (pieceSections parts js) }

theorem Piece.mem_sources {p : Piece} {m : Mapping} (hm : m ∈ gAdded p.ops) {s : String} (hs : m.source = some s) : s ∈ p.sources := by
  rw [Piece.sources, mem_firstOccurrences, List.mem_filterMap]
  exact ⟨m, hm, hs⟩

theorem Piece.Good.key_ok {u : Option String} {p : Piece} (h : p.Good E u) {s : String}
    (hs : s ∈ p.sources ∨ ∃ v, GOp.setContent s v ∈ p.ops) : Generator.contentKey E.url p.root s = .ok (p.key E s) := by
  obtain ⟨t, ht⟩ := h.keys s hs
  rw [Piece.key, ht]
  rfl

theorem Piece.Good.key₁ {u : Option String} {p : Piece} (h : p.Good E u) :
    ∀ t v, GOp.setContent t v ∈ p.ops → Generator.contentKey E.url p.root t = .ok (p.key E t) :=
  fun _ v ht => h.key_ok (.inr ⟨v, ht⟩)

theorem Piece.Good.key₂ {u : Option String} {p : Piece} (h : p.Good E u) :
    ∀ m ∈ gAdded p.ops, ∀ s, m.source = some s → Generator.contentKey E.url p.root s = .ok (p.key E s) :=
  fun _ hm _ hs => h.key_ok (.inl (Piece.mem_sources hm hs))

theorem forall₂_toOption {α β : Type} {f : α → Res β} {l : List α} (h : ∀ a ∈ l, ∃ b, f a = .ok b) :
    List.Forall₂ (fun a b => f a = .ok b) l (l.filterMap fun a => (f a).toOption) := by
  induction l with
  | nil => exact .nil
  | cons a l ih =>
    obtain ⟨b, hb⟩ := h a (by simp)
    have : (f a).toOption = some b := by rw [hb]; rfl
    rw [List.filterMap_cons, this]
    exact .cons hb (ih fun x hx => h x (by simp [hx]))

theorem Piece.Good.located {u : Option String} {p : Piece} (h : p.Good E u) :
    List.Forall₂ (fun s t => sourceUrl E p.root s u = .ok t) p.sources (p.located E u) := forall₂_toOption h.urls

/-- What is used of the map of a part. -/
theorem Piece.Writes.spec {u : Option String} {p : Piece} (hp : p.Good E u) {j : SourceMapJson} (h : Piece.Writes E p j) :
    j.sections = none ∧ j.version = 3 ∧ j.sourceRoot = p.root ∧ j.sources = some p.sources ∧ LocatedAs E j u (p.located E u) ∧
    (p.Held E → j.sourcesContent = some (p.contents E)) ∧ (¬ p.Held E → j.sourcesContent = none) := by
  obtain ⟨g, g', h1, h2⟩ := h
  obtain ⟨a1, a2, a3, a4⟩ := C61_fixed_fields E.url E.cfg p.file p.root p.skip p.ops g g' j h1 h2
  obtain ⟨b1, _⟩ := C16_generator_tables E.url E.cfg p.file p.root p.skip p.ops g g' j h1 h2
  obtain ⟨c1, c2⟩ := content_output (p.key E) hp.key₁ hp.key₂ h1 h2
  refine ⟨a4, a1, a3, b1, ⟨_, b1, by rw [a3]; exact hp.located⟩, c1, fun hn => c2 fun t => ?_⟩
  exact Classical.byContradiction fun ht => hn ⟨t, ht⟩

theorem mem_pieces {parts : List Piece} {js : List SourceMapJson} (hw : List.Forall₂ (Piece.Writes E) parts js)
    {x : JsonSection SourceMapJson} (hx : x ∈ pieceSections parts js) :
    ∃ p ∈ parts, Piece.Writes E p x.map ∧ x.offset = p.offset ∧ x.url = none := by
  induction hw with
  | nil => cases hx
  | @cons p j parts js hp _ ih =>
    rcases List.mem_cons.1 hx with rfl | hx
    · exact ⟨p, by simp, hp, rfl, rfl⟩
    · obtain ⟨q, hq, h⟩ := ih hx
      exact ⟨q, by simp [hq], h⟩

theorem pieces_length {parts : List Piece} {js : List SourceMapJson} (hw : List.Forall₂ (Piece.Writes E) parts js) :
    (pieceSections parts js).length = parts.length := by
  rw [pieceSections, List.length_zipWith, hw.length_eq, Nat.min_self]

theorem pieces_offsets {parts : List Piece} {js : List SourceMapJson} (hw : List.Forall₂ (Piece.Writes E) parts js) :
    (pieceSections parts js).map (·.offset) = parts.map Piece.offset := by
  induction hw with
  | nil => rfl
  | cons _ _ ih => simpa [pieceSections] using ih

theorem pieces_get {parts : List Piece} {js : List SourceMapJson} (hw : List.Forall₂ (Piece.Writes E) parts js) (i : Nat) :
    (∀ x, (pieceSections parts js)[i]? = some x → ∃ t, parts[i]? = some t ∧ Piece.Writes E t x.map ∧ x.offset = t.offset) ∧
    (∀ t, parts[i]? = some t → ∃ x, (pieceSections parts js)[i]? = some x ∧ Piece.Writes E t x.map ∧ x.offset = t.offset) := by
  induction hw generalizing i with
  | nil => simp [pieceSections]
  | @cons p j parts js hp _ ih =>
    have hb : pieceSections (p :: parts) (j :: js) = ⟨p.offset, j, none⟩ :: pieceSections parts js := rfl
    rw [hb]
    cases i with
    | zero =>
      simp only [List.getElem?_cons_zero, Option.some.injEq]
      exact ⟨fun x e => ⟨p, rfl, by subst e; exact hp, by subst e; rfl⟩, fun t e => ⟨_, rfl, by subst e; exact hp, by subst e; rfl⟩⟩
    | succ i =>
      simp only [List.getElem?_cons_succ]
      exact ih i

theorem pieces_plain {u : Option String} {parts : List Piece} {js : List SourceMapJson} (hgood : ∀ p ∈ parts, p.Good E u)
    (hw : List.Forall₂ (Piece.Writes E) parts js) : ∀ x ∈ pieceSections parts js, RSM.Plain x := by
  intro x hx
  obtain ⟨p, hp, _, h2, _⟩ := mem_pieces hw hx
  have hl := (hgood p hp).line
  have hc := (hgood p hp).column
  rw [← h2] at hl hc
  exact ⟨hl.1, hc.1, by unfold IsI32; omega, by unfold IsI32; omega⟩

theorem pieces_i32 {u : Option String} {parts : List Piece} {js : List SourceMapJson} (hgood : ∀ p ∈ parts, p.Good E u)
    (hw : List.Forall₂ (Piece.Writes E) parts js) (file : Option String) :
    (assembled file parts js).I32 ∧ (assembled file parts js).nesting ≤ 127 := by
  have hsec : ∀ x ∈ pieceSections parts js, IsI32 x.offset.line ∧ IsI32 x.offset.column ∧ x.map.I32 ∧
      x.map.nesting ≤ 2 := by
    intro x hx
    obtain ⟨p, hp, h1, h2, _⟩ := mem_pieces hw hx
    obtain ⟨a1, a2, _⟩ := h1.spec (hgood p hp)
    have hl := (hgood p hp).line
    have hc := (hgood p hp).column
    rw [h2]
    refine ⟨by unfold IsI32; omega, by unfold IsI32; omega, ⟨_, by rw [a2]; decide, ?_, ?_, ?_⟩, ?_⟩
    · rw [a1]; intro l hl; cases hl
    · rw [a1]; intro l hl; cases hl
    · rw [a1]; intro l hl; cases hl
    · rw [nesting_eq, a1, optNesting]
      split <;> omega
  constructor
  · refine ⟨_, by show IsI32 3; decide, ?_, ?_, ?_⟩
    · rintro l hl x hx; cases hl; exact (hsec x hx).1
    · rintro l hl x hx; cases hl; exact (hsec x hx).2.1
    · rintro l hl x hx; cases hl; exact (hsec x hx).2.2.1
  · rw [nesting_eq]
    have : sectionsNesting (pieceSections parts js) ≤ 3 := sectionsNesting_le fun x hx => by
      have := (hsec x hx).2.2.2
      omega
    show 1 + max _ (optNesting (some (pieceSections parts js))) ≤ 127
    rw [optNesting]
    split <;> omega

theorem pieces_create (hJ : E.json.Laws) {u : Option String} {parts : List Piece} {js : List SourceMapJson}
    (hgood : ∀ p ∈ parts, p.Good E u) (hw : List.Forall₂ (Piece.Writes E) parts js) (file : Option String)
    (sch : List Nat) (c : IndexedConsumer E) :
    createConsumer sch (toStr E.json (assembled file parts js)) u = .ok (some (.indexed c)) ↔
      IndexedConsumer.fromSourceMapJson sch (assembled file parts js) u = .ok c := by
  obtain ⟨h1, h2⟩ := pieces_i32 hgood hw file
  unfold createConsumer
  rw [C26_roundtrip_partial E.json hJ _ h1 h2]
  show (IndexedConsumer.fromSourceMapJson sch (assembled file parts js) u >>= fun c =>
    pure (some (Consumer.indexed c))) = _ ↔ _
  cases IndexedConsumer.fromSourceMapJson (E := E) sch (assembled file parts js) u <;> simp [Res.pure_eq]

/-- C130: the maps of the parts can be written, and the whole is accepted with the URL, if the workers run in order and the parts
are in order. -/
theorem C130_accepted (hJ : E.json.Laws) {u : Option String} {parts : List Piece} (hgood : ∀ p ∈ parts, p.Good E u)
    (file : Option String) (hord : (parts.map Piece.offset).Pairwise Position.Le) :
    ∃ js, List.Forall₂ (Piece.Writes E) parts js ∧ ∃ c : IndexedConsumer E,
      createConsumer (List.range parts.length) (toStr E.json (assembled file parts js)) u = .ok (some (.indexed c)) := by
  have hlim := E.cfg.vlqLimit_le
  have hwr : ∃ js, List.Forall₂ (Piece.Writes E) parts js := by
    clear hord
    induction parts with
    | nil => exact ⟨[], .nil⟩
    | cons p parts ih =>
      obtain ⟨js, h⟩ := ih fun q hq => hgood q (by simp [hq])
      have hp := hgood p (by simp)
      have hf := hp.few
      have hn := hp.fewNames
      unfold Piece.sources at hf
      unfold Piece.names at hn
      have hval : ∀ m ∈ gAdded p.ops, m.Valid ∧ 1 ≤ m.generated.line := fun m hm => ⟨(hp.enc m hm).valid, (hp.enc m hm).line.1⟩
      obtain ⟨g, hg⟩ := gRun_total (U := E.url) (cfg := E.cfg) (file := p.file) (root := p.root) (skip := p.skip)
        (p.key E) p.ops [] _ hp.key₁ hp.key₂ hval (by show _ < _; simp only [List.nil_append]; omega)
        (by show _ < _; simp only [List.nil_append]; omega) rfl
      obtain ⟨j, g', hj⟩ := asJson_total (p.key E) hp.key₂ hval (by omega) (by omega) hg
      exact ⟨j :: js, .cons ⟨g, g', hg, hj⟩ h⟩
  obtain ⟨js, hw⟩ := hwr
  have hok : ∀ x ∈ pieceSections parts js, SectionOk E u x := by
    intro x hx
    obtain ⟨p, hp, h1, h2, h3⟩ := mem_pieces hw hx
    obtain ⟨_, _, a3, a4, ⟨S, b1, b2⟩, _⟩ := h1.spec (hgood p hp)
    have hl := (hgood p hp).line
    have hc := (hgood p hp).column
    refine ⟨h3, by rw [h2]; unfold IsI32; omega, by rw [h2]; unfold IsI32; omega, ?_⟩
    simp only [BasicConsumer.fromSourceMapJson, BasicConsumer.build, b1, unwrap, forall₂_of_mapM.2 b2, Res.ok_bind,
      Res.pure_eq]
    exact ⟨_, rfl⟩
  have hpos : ∀ x ∈ pieceSections parts js, 0 ≤ x.offset.line := by
    intro x hx
    obtain ⟨p, hp, _, h2, _⟩ := mem_pieces hw hx
    rw [h2]; exact (hgood p hp).line.1
  obtain ⟨c, hc⟩ := (C40_sequential_partial (E := E) (assembled file parts js) u
    (secs := pieceSections parts js) rfl rfl hok hpos).2 (by rw [pieces_offsets hw]; exact hord)
  rw [pieces_length hw] at hc
  exact ⟨js, hw, c, (pieces_create hJ hgood hw file _ c).2 hc⟩

/-- The map of a part, asked for a position. -/
theorem Piece.Writes.original (hL : E.maps.Laws) (hT : E.maps.Total) {u : Option String} {t : Piece} (ht : t.Good E u)
    {j : SourceMapJson} (h : Piece.Writes E t j) {k : BasicConsumer E} (hk : BasicConsumer.Built j u k) {q : Position}
    (hq : Askable q) {b : Option Bias} {r : Option Mapping} {k' : BasicConsumer E} (hr : k.originalPositionFor q b = .ok (r, k')) :
    t.Finds E u q b (r.map BasicConsumer.stripMapping) := by
  have hlim := E.cfg.vlqLimit_le
  obtain ⟨_, _, a3, a4, a5, a6, a7⟩ := h.spec ht
  obtain ⟨g, g', hg, hj⟩ := h
  obtain ⟨text, raws, ms, h1, h2, h3, h4, h5, h6, h7, h8⟩ := emitted_pairs ht.enc ht.few ht.fewNames hg hj
  obtain ⟨raws', hseg, _, _, hnam, hsound, hcomplete, _⟩ := generator_segments E.url E.cfg t.file t.root t.skip t.ops g g' j
    ht.enc ht.few ht.fewNames hg hj
  have hrr : raws' = raws := by
    obtain ⟨_, e1, e2, _⟩ := hseg
    rw [h3] at e1
    cases e1
    rw [h4] at e2
    exact (Option.some.inj e2).symm
  subst hrr
  have hgs : k.getSources = t.located E u := by
    obtain ⟨st, srcs, urls, b1, b2, _, _, habs, _⟩ := hk.spec
    rw [a4] at b1
    cases b1
    rw [a3, forall₂_of_mapM.2 ht.located] at b2
    cases b2
    simp only [BasicConsumer.getSources, habs, C07_arrayset_duplicates]
  have htold : ∀ x m, Denotes t.sources t.names x m → named (t.located E u) t.names x = told E t.root u m := by
    intro x m hden
    have := denotes_told hk a4 hden
    rwa [hgs, a3] at this
  have ha : k.answer (.original q b) = .ok (.mapping (r.map BasicConsumer.stripMapping)) := by
    simp only [BasicConsumer.answer, BasicConsumer.step, hr, Res.ok_bind, Res.pure_eq]
    rfl
  have hfew := ht.few
  have hlen := ht.located.length_eq
  have := may_answer hL hT hk id hseg hnam ht.apart hgs (by omega)
      (fun x hx => by
        obtain ⟨m, hm, hden⟩ := hsound x hx
        exact denotes_fits (ht.enc m hm) hden hlen.symm) (C := t.contents E) ?_
        (by rw [← hlen]; exact List.length_filterMap_le _ _) (L := (gAdded t.ops).map (told E t.root u)) ?_ ?_
        (op := .original q b) ⟨hq.2.2.1, hq.2.2.2⟩ (by intro s e; cases e) (by intro s e; cases e) ha
  · exact this
  · by_cases hh : t.Held E
    · exact .inl (a6 hh)
    · refine .inr ⟨a7 hh, ?_⟩
      have hh' : ∀ s, latestContent (t.key E) s t.ops = none := fun t => Classical.byContradiction fun h => hh ⟨t, h⟩
      simp [Piece.contents, hh']
  · intro y
    constructor
    · intro hy
      obtain ⟨x, hx, rfl⟩ := List.mem_map.1 hy
      obtain ⟨m, hm, hden⟩ := hsound x hx
      exact List.mem_map.2 ⟨m, hm, (htold x m hden).symm⟩
    · intro hy
      obtain ⟨m, hm, rfl⟩ := List.mem_map.1 hy
      obtain ⟨x, hx, hden⟩ := hcomplete m hm
      exact List.mem_map.2 ⟨x, hx, htold x m hden⟩
  · intro hn
    have e : raws'.map (named (t.located E u) t.names) = ms.map (told E t.root u) := map_forall₂ h5 htold
    show (raws'.map (named (t.located E u) t.names)).Perm _
    rw [e]
    refine (h8 ?_).map _
    refine (List.pairwise_map.1 hn).imp fun {a b} hab hk => hab ?_
    obtain ⟨k1, k2, k3, k4⟩ := hk
    obtain ⟨a1, a2, a3, a4, a5⟩ := a
    obtain ⟨b1, b2, b3, b4, b5⟩ := b
    simp only at k1 k2 k3 k4
    simp only [told, Mapping.bare, k1, k2, k3, k4]

/-- C130, positions: what `original_position_for` finds, after any calls. -/
theorem C130_original (hL : E.maps.Laws) (hT : E.maps.Total) (hJ : E.json.Laws) {u : Option String} {parts : List Piece}
    {js : List SourceMapJson} (hlen : parts.length < 2147483647) (hgood : ∀ p ∈ parts, p.Good E u)
    (hord : (parts.map Piece.offset).Pairwise Position.Le) (hw : List.Forall₂ (Piece.Writes E) parts js)
    (file : Option String) {sch : List Nat} (hsch : IsSchedule parts.length sch) {c₀ c : IndexedConsumer E}
    (h : createConsumer sch (toStr E.json (assembled file parts js)) u = .ok (some (.indexed c₀)))
    {ops : List IndexedConsumer.Op} (hrun : c₀.run ops = .ok c) {p : Position} (hp : Askable p) {b : Option Bias}
    {r : Option Mapping} {c' : IndexedConsumer E} (hr : c.originalPositionFor p b = .ok (r, c')) :
    PiecesFind E u parts p b (r.map BasicConsumer.stripMapping) := by
  have e1 := (pieces_create hJ hgood hw file sch c₀).1 h
  have hsorted : (pieceSections parts js).Pairwise fun a b => a.offset.Le b.offset := by
    have := hord
    rw [← pieces_offsets hw, List.pairwise_map] at this
    exact this
  have hc : Asked u (pieceSections parts js) c :=
    ⟨⟨_, sch, c₀, ops, rfl, by rwa [pieces_length hw], e1, hrun⟩, by rwa [pieces_length hw], pieces_plain hgood hw, hsorted⟩
  have hor : originalAnswer c p b = .ok (r.map BasicConsumer.stripMapping) := by
    rw [originalAnswer, hr]; rfl
  rcases section_or_none hsorted p with ⟨i, s, ha⟩ | hno
  · right
    obtain ⟨t, t1, t2, t3⟩ := (pieces_get hw i).1 s ha.get
    refine ⟨i, t, ⟨t1, ?_, ?_, ?_⟩, ?_⟩
    · have := ha.before
      rwa [t3] at this
    · intro q hq hb
      obtain ⟨n, hn⟩ := List.mem_iff_getElem?.1 hq
      obtain ⟨x, x1, _, x3⟩ := (pieces_get hw n).2 q hn
      have := ha.last x (List.mem_of_getElem? x1) (by rw [x3]; exact hb)
      rwa [t3, x3] at this
    · intro n q hn hq
      obtain ⟨x, x1, _, x3⟩ := (pieces_get hw n).2 q hn
      exact ha.first n x x1 (by rw [x3, t3, hq])
    · obtain ⟨k₀, k, g1, g2, g3⟩ := asked_section hL hc hp ha b
      have hbu : BasicConsumer.Built s.map u k₀ := .inr g1
      have hrel : BasicConsumer.Rel k₀ k₀ := hbu.rel
      have heq := map_original (g2.agree_total hL hT hrel (.original (withinSection s p) b))
      rw [← g3, hor] at heq
      have hin : withinSection s p = t.within p := by simp only [withinSection, Piece.within, t3]
      cases hk : k₀.originalPositionFor (withinSection s p) b with
      | error e => rw [hk] at heq; cases heq
      | ok z =>
        rw [hk] at heq
        obtain ⟨z1, z2⟩ := z
        simp only [Except.map, Except.ok.injEq] at heq
        rw [heq, ← hin]
        refine t2.original hL hT (hgood t (List.mem_of_getElem? t1)) hbu ?_ hk
        have h1 := pieces_plain hgood hw s (List.mem_of_getElem? ha.get)
        have h2 := ha.before
        obtain ⟨p1, p2, p3, p4⟩ := h1
        obtain ⟨q1, q2, q3, q4⟩ := hp
        unfold Position.Le at h2
        unfold IsI32 at *
        unfold Askable withinSection IsI32
        dsimp only at *
        refine ⟨?_, ?_, ?_, ?_⟩ <;> try split
        all_goals omega
  · left
    have := no_section hL hc hp hno b
    rw [hor] at this
    refine ⟨fun q hq hb => ?_, Except.ok.inj this⟩
    obtain ⟨n, hn⟩ := List.mem_iff_getElem?.1 hq
    obtain ⟨x, x1, _, x3⟩ := (pieces_get hw n).2 q hn
    exact hno x (List.mem_of_getElem? x1) (by rw [x3]; exact hb)

/-- What the section of a part says of a source. -/
theorem Piece.Writes.says {u : Option String} {p : Piece} (hp : p.Good E u) {j : SourceMapJson} (h : Piece.Writes E p j)
    {s l : String} (hs : p.Seeks E u s l) : (j.sourcesContent = none ↔ ¬ p.Held E) ∧ (NotASource E j u s ↔ l ∉ p.located E u) ∧
    ∀ t, Holds E j u s t ↔ p.Held E ∧ l ∈ p.located E u ∧ (p.contents E)[(p.located E u).idxOf l]? = some t := by
  obtain ⟨_, _, a3, a4, a5, a6, a7⟩ := h.spec hp
  obtain ⟨t₀, t₁, e0, e1, e2⟩ := hs
  refine ⟨⟨fun e hh => ?_, a7⟩, ⟨?_, fun hm => ?_⟩, fun t => ⟨?_, ?_⟩⟩
  · rw [a6 hh] at e; cases e
  · rintro ⟨L, t, t', b1, b2, b3, b4, b5⟩
    rw [e0] at b2
    cases b2
    rw [a3, e1] at b4
    cases b4
    rw [a5.unique b1] at b3 b5
    rw [e2, if_neg b3]
    exact b5
  · by_cases h0 : t₀ ∈ p.located E u
    · rw [e2, if_pos h0] at hm; exact absurd h0 hm
    · rw [e2, if_neg h0] at hm
      exact ⟨_, t₀, t₁, a5, e0, h0, by rw [a3]; exact e1, hm⟩
  · rintro ⟨L, contents, n, b1, b2, b3, b4⟩
    obtain rfl := a5.unique b1
    have hh : p.Held E := Classical.byContradiction fun hn => by rw [a7 hn] at b2; cases b2
    rw [a6 hh] at b2
    cases b2
    obtain ⟨t, c1, c2⟩ := b3
    rw [e0] at c1
    cases c1
    rw [a3, e1] at c2
    have hf : IsFirst (p.located E u) l n := by
      rcases c2 with c2 | ⟨c2, t', c3, c4⟩
      · rw [e2, if_pos (List.mem_iff_getElem?.2 ⟨n, c2.1⟩)]; exact c2
      · cases c3; rw [e2, if_neg c2]; exact c4
    exact ⟨hh, List.mem_iff_getElem?.2 ⟨n, hf.1⟩, by rw [idxOf_first hf]; exact b4⟩
  · rintro ⟨hh, hm, ht⟩
    refine ⟨_, _, _, a5, a6 hh, ⟨t₀, e0, ?_⟩, ht⟩
    by_cases h0 : t₀ ∈ p.located E u
    · rw [e2, if_pos h0]; exact .inl (first_idxOf h0)
    · rw [e2, if_neg h0] at hm ⊢
      exact .inr ⟨h0, t₁, by rw [a3]; exact e1, first_idxOf hm⟩

theorem piece_content_iff {u : Option String} {s : String} {seek : Piece → String} (q : Option Bool)
    {parts : List Piece} {js : List SourceMapJson} (hgood : ∀ p ∈ parts, p.Good E u)
    (hseek : ∀ p ∈ parts, p.Seeks E u s (seek p)) (hw : List.Forall₂ (Piece.Writes E) parts js) :
    (∀ t, (∃ pre x post, pieceSections parts js = pre ++ x :: post ∧
      (∀ y ∈ pre, y.map.sourcesContent = none ∨ (q = some false ∧ NotASource E y.map u s)) ∧ Holds E x.map u s t) ↔
        pieceContent E u seek q parts = some (some t)) ∧
    ((q = some false ∧ ∀ y ∈ pieceSections parts js, y.map.sourcesContent = none ∨ NotASource E y.map u s) ↔
      pieceContent E u seek q parts = some none) := by
  induction hw with
  | nil =>
    constructor
    · intro t
      constructor
      · rintro ⟨pre, x, post, e, _⟩
        cases pre <;> cases e
      · simp [pieceContent]
    · by_cases h : q = some false <;> simp [pieceSections, pieceContent, h]
  | @cons p j parts js hpj _ ih =>
    obtain ⟨ih1, ih2⟩ := ih (fun q hq => hgood q (by simp [hq])) (fun q hq => hseek q (by simp [hq]))
    obtain ⟨c1, c2, c3⟩ := hpj.says (hgood p (by simp)) (hseek p (by simp))
    have hb : pieceSections (p :: parts) (j :: js) = ⟨p.offset, j, none⟩ :: pieceSections parts js := rfl
    constructor
    · intro t
      rw [hb, split_cons, ih1 t]
      simp only [c1, c2, c3, pieceContent]
      by_cases h1 : p.Held E <;> by_cases h2 : seek p ∈ p.located E u <;> by_cases h3 : q = some false <;> simp [h1, h2, h3]
    · rw [hb]
      simp only [List.mem_cons, forall_eq_or_imp, c1, c2, pieceContent]
      by_cases h1 : p.Held E <;> by_cases h2 : seek p ∈ p.located E u <;> by_cases h3 : q = some false <;>
        simp [h1, h2, h3] at ih2 ⊢ <;> exact ih2

/-- C130, contents: what `source_content_for` answers, and that it panics otherwise; after any calls. -/
theorem C130_content (hL : E.maps.Laws) (hJ : E.json.Laws) {u : Option String} {parts : List Piece}
    {js : List SourceMapJson} (hgood : ∀ p ∈ parts, p.Good E u) (hw : List.Forall₂ (Piece.Writes E) parts js)
    (file : Option String) {sch : List Nat} (hsch : IsSchedule parts.length sch) {c₀ c : IndexedConsumer E}
    (h : createConsumer sch (toStr E.json (assembled file parts js)) u = .ok (some (.indexed c₀)))
    {ops : List IndexedConsumer.Op} (hrun : c₀.run ops = .ok c) {s : String} {seek : Piece → String}
    (hseek : ∀ p ∈ parts, p.Seeks E u s (seek p)) (q : Option Bool) (r : Option String) :
    (∃ c', c.sourceContentFor s q = .ok (r, c')) ↔ pieceContent E u seek q parts = some r := by
  have e1 := (pieces_create hJ hgood hw file sch c₀).1 h
  have hfew : ∀ j ∈ pieceSections parts js, ∀ srcs, j.map.sources = some srcs → srcs.length < 2147483648 := by
    intro x hx srcs hsrcs
    obtain ⟨p, hp, hwr, _⟩ := mem_pieces hw hx
    obtain ⟨_, _, _, a4, _⟩ := hwr.spec (hgood p hp)
    rw [a4] at hsrcs
    cases hsrcs
    have h2 := (hgood p hp).few
    have h3 := E.cfg.vlqLimit_le
    omega
  obtain ⟨k1, k2⟩ := C46_exact hL (secs := pieceSections parts js) rfl (by rwa [pieces_length hw]) e1 hrun hfew s q
  obtain ⟨b1, b2⟩ := piece_content_iff q hgood hseek hw
  cases r with
  | some t => rw [← b1 t]; exact k1 t
  | none => rw [← b2]; exact k2

/-- C130: a program lets several generators, each with its source root, write a map, puts the maps together and asks the whole, read
with any URL. It ends without a panic if and only if every call has what it needs, and then every answer is one that what was added
and set in the parts allows, with the sources as they are located. -/
theorem C130_answers (hL : E.maps.Laws) (hT : E.maps.Total) (hJ : E.json.Laws) {u : Option String} {parts : List Piece}
    {js : List SourceMapJson} (hlen : parts.length < 2147483647) (hgood : ∀ p ∈ parts, p.Good E u)
    (hord : (parts.map Piece.offset).Pairwise Position.Le) (hw : List.Forall₂ (Piece.Writes E) parts js)
    (file : Option String) {sch : List Nat} (hsch : IsSchedule parts.length sch) {c : IndexedConsumer E}
    (h : createConsumer sch (toStr E.json (assembled file parts js)) u = .ok (some (.indexed c)))
    {ops : List IndexedConsumer.Op} (hop : ∀ op ∈ ops, IdxAskable op) {seek : String → Piece → String}
    (hseek : ∀ s q, IndexedConsumer.Op.content s q ∈ ops → ∀ p ∈ parts, p.Seeks E u s (seek s p)) :
    ((∃ l, c.session ops = .ok l) ↔ ∀ op ∈ ops, PiecesNeed E u seek parts op) ∧
    ∀ l, c.session ops = .ok l → List.Forall₂ (PiecesAnswer E u seek parts) ops l := by
  have e1 := (pieces_create hJ hgood hw file sch c).1 h
  have hlim := E.cfg.vlqLimit_le
  have hfit : SectionsFit (pieceSections parts js) := by
    refine ⟨by rwa [pieces_length hw], pieces_plain hgood hw, ?_, ?_⟩
    · have := hord
      rw [← pieces_offsets hw, List.pairwise_map] at this
      exact this
    · intro x hx
      obtain ⟨p, hp, ⟨g, g', hg, hj⟩, _⟩ := mem_pieces hw hx
      obtain ⟨raws, d1, _, d2, d3, d4, _⟩ := generator_segments E.url E.cfg p.file p.root p.skip p.ops g g' x.map
        (hgood p hp).enc (hgood p hp).few (hgood p hp).fewNames hg hj
      have hf := (hgood p hp).few
      refine ⟨raws, _, _, d1, d3, d2, by unfold Piece.sources at hf; omega, fun r hr => ?_⟩
      obtain ⟨m, hm, hd⟩ := d4 r hr
      exact denotes_fits ((hgood p hp).enc m hm) hd rfl
  constructor
  · rw [session_run, C123_returns_iff hL hT (secs := pieceSections parts js) rfl (by rwa [pieces_length hw]) e1 hfit hop]
    refine forall₂_congr fun op hm => ?_
    have hnil : pieceSections parts js = [] ↔ parts = [] := by
      rw [← List.length_eq_zero_iff, pieces_length hw, List.length_eq_zero_iff]
    cases op with
    | original p b => exact Iff.rfl
    | spans => exact Iff.rfl
    | generated s l k b => exact hnil
    | all s l k => exact hnil
    | each o => exact hnil
    | content s q =>
      obtain ⟨b1, b2⟩ := piece_content_iff q hgood (hseek s q hm) hw
      simp only [IdxNeeds, PiecesNeed]
      rw [b2]
      constructor
      · rintro (⟨t, ht⟩ | e)
        · rw [(b1 t).1 ht]; simp
        · rw [e]; simp
      · intro hn
        cases hb : pieceContent E u (seek s) q parts with
        | none => exact absurd hb hn
        | some r =>
          cases r with
          | none => exact .inr rfl
          | some t => exact .inl ⟨t, (b1 t).2 hb⟩
  have key : ∀ (op : IndexedConsumer.Op) (before : List IndexedConsumer.Op) (d d' : IndexedConsumer E)
      (a : IndexedConsumer.Ans), IdxAskable op → (∀ s q, op = .content s q → ∀ p ∈ parts, p.Seeks E u s (seek s p)) →
      c.run before = .ok d → d.reply op = .ok (a, d') → PiecesAnswer E u seek parts op a := by
    intro op before d d' a hop hpl hrun hr
    obtain ⟨hl, _⟩ := sections_after hL (secs := pieceSections parts js) rfl (by rwa [pieces_length hw]) e1 hrun
    have hnil : d.sections = [] → parts = [] := fun e => by
      rw [e, pieces_length hw] at hl
      exact List.length_eq_zero_iff.1 hl.symm
    cases op with
    | spans =>
      simp only [IndexedConsumer.reply, Res.bind_eq_ok, Res.pure_eq, Except.ok.injEq, Prod.mk.injEq] at hr
      obtain ⟨_, _, rfl, _⟩ := hr
      trivial
    | content s q =>
      simp only [IndexedConsumer.reply, Res.bind_eq_ok, Res.pure_eq, Except.ok.injEq, Prod.mk.injEq] at hr
      obtain ⟨⟨r, d1⟩, hr, rfl, _⟩ := hr
      exact (C130_content hL hJ hgood hw file hsch h hrun (hpl s q rfl) q r).1 ⟨d1, hr⟩
    | original p b =>
      simp only [IndexedConsumer.reply, Res.bind_eq_ok, Res.pure_eq, Except.ok.injEq, Prod.mk.injEq] at hr
      obtain ⟨⟨r, d1⟩, hr, rfl, _⟩ := hr
      exact C130_original hL hT hJ hlen hgood hord hw file hsch h hrun hop hr
    | generated s l k b =>
      simp only [IndexedConsumer.reply, Res.bind_eq_ok, Res.pure_eq, Except.ok.injEq, Prod.mk.injEq] at hr
      obtain ⟨⟨r, d1⟩, hr, rfl, _⟩ := hr
      by_cases hd : d.sections = []
      · rw [(C44_no_sections d hd s l k none b .generated ⟨1, 0⟩).1] at hr
        cases hr
        exact ⟨hnil hd, rfl⟩
      · simp only [generatedPositionFor, find_panics hd, Res.error_bind, reduceCtorEq] at hr
    | all s l k =>
      simp only [IndexedConsumer.reply, Res.bind_eq_ok, Res.pure_eq, Except.ok.injEq, Prod.mk.injEq] at hr
      obtain ⟨⟨r, d1⟩, hr, rfl, _⟩ := hr
      by_cases hd : d.sections = []
      · rw [(C44_no_sections d hd s l 0 k none .generated ⟨1, 0⟩).2.1] at hr
        cases hr
        exact ⟨hnil hd, rfl⟩
      · simp only [allGeneratedPositionFor, find_panics hd, Res.error_bind, reduceCtorEq] at hr
    | each o =>
      simp only [IndexedConsumer.reply, Res.bind_eq_ok, Res.pure_eq, Except.ok.injEq, Prod.mk.injEq] at hr
      obtain ⟨⟨r, d1⟩, hr, rfl, _⟩ := hr
      by_cases hd : d.sections = []
      · rw [(C44_no_sections d hd "" 1 0 none none o ⟨1, 0⟩).2.2.1] at hr
        cases hr
        exact ⟨hnil hd, rfl⟩
      · obtain ⟨e, he⟩ := each_panics hd o
        rw [he] at hr
        cases hr
  have all : ∀ (ops before : List IndexedConsumer.Op) (d : IndexedConsumer E) (l : List IndexedConsumer.Ans),
      (∀ op ∈ ops, IdxAskable op) →
      (∀ s q, IndexedConsumer.Op.content s q ∈ ops → ∀ p ∈ parts, p.Seeks E u s (seek s p)) →
      c.run before = .ok d → d.session ops = .ok l → List.Forall₂ (PiecesAnswer E u seek parts) ops l := by
    intro ops
    induction ops with
    | nil => intro before d l _ _ _ hl; cases hl; exact .nil
    | cons op ops ih =>
      intro before d l ho hp hb hl
      simp only [IndexedConsumer.session, Res.bind_eq_ok, Res.pure_eq, Except.ok.injEq] at hl
      obtain ⟨⟨a, d'⟩, h1, l', h2, rfl⟩ := hl
      refine .cons (key op before d d' a (ho op (by simp)) (fun s q e => hp s q (by simp [e])) hb h1) ?_
      refine ih (before ++ [op]) d' l' (fun o h => ho o (by simp [h])) (fun s q h => hp s q (by simp [h])) ?_ h2
      exact idx_run_snoc hb (reply_step h1)
  exact fun l hl => all ops [] c l hop hseek rfl hl

/-- Only one part is asked. -/
theorem PieceAsked.unique {parts : List Piece} {p : Position} {i i' : Nat} {t t' : Piece} (h : PieceAsked parts p i t)
    (h' : PieceAsked parts p i' t') : t = t' := by
  have he : t.offset = t'.offset := (h'.last t (List.mem_of_getElem? h.get) h.before).antisymm
    (h.last t' (List.mem_of_getElem? h'.get) h'.before)
  have hi : i = i' := Nat.le_antisymm (h.first i' t' h'.get he.symm) (h'.first i t h.get he)
  have := h.get
  rw [hi, h'.get] at this
  exact (Option.some.inj this).symm

theorem Piece.Finds.unique {cfg : Cfg} {u : Option String} {t : Piece} (henc : ∀ m ∈ gAdded t.ops, m.Encodable cfg)
    (hgen : GenOnce ((gAdded t.ops).map (told E t.root u))) {p : Position} {b : Option Bias} {r r' : Option Mapping}
    (h : t.Finds E u p b r) (h' : t.Finds E u p b r') : r = r' := by
  obtain ⟨o, n1, rfl⟩ := h
  obtain ⟨o', n2, rfl⟩ := h'
  rw [Nearest.unique (fun a ha b hb' hab => hgen a ha b hb' ?_) n1 n2]
  obtain ⟨a', ha', rfl⟩ := List.mem_map.1 ha
  obtain ⟨b', hb'', rfl⟩ := List.mem_map.1 hb'
  have q1 := (henc a' ha').line
  have q2 := (henc b' hb'').line
  have q3 := (henc a' ha').column
  have q4 := (henc b' hb'').column
  obtain ⟨⟨a1, a2⟩, a3, a4, a5, a6⟩ := a'
  obtain ⟨⟨b1, b2⟩, b3, b4, b5, b6⟩ := b'
  simp only [told, Mapping.bare, Mapping.genAt, Prod.mk.injEq, Position.mk.injEq] at hab q1 q2 q3 q4 ⊢
  omega

theorem PiecesFind.unique {cfg : Cfg} {u : Option String} {parts : List Piece}
    (henc : ∀ t ∈ parts, ∀ m ∈ gAdded t.ops, m.Encodable cfg)
    (hgen : ∀ t ∈ parts, GenOnce ((gAdded t.ops).map (told E t.root u))) {p : Position} {b : Option Bias} {r r' : Option Mapping}
    (h : PiecesFind E u parts p b r) (h' : PiecesFind E u parts p b r') : r = r' := by
  rcases h with ⟨h1, rfl⟩ | ⟨i, t, ht, h1⟩ <;> rcases h' with ⟨h2, rfl⟩ | ⟨i', t', ht', h2⟩
  · rfl
  · exact absurd ht'.before (h1 t' (List.mem_of_getElem? ht'.get))
  · exact absurd ht.before (h2 t (List.mem_of_getElem? ht.get))
  · obtain rfl := ht.unique ht'
    have hm := List.mem_of_getElem? ht.get
    exact h1.unique (henc t hm) (hgen t hm) h2

/-- C130, what is determined: if in no part two different mappings were added for one generated position, then only one answer is
allowed to a call, span ends apart. -/
theorem C130_unique {cfg : Cfg} {u : Option String} {seek : String → Piece → String} {parts : List Piece}
    (henc : ∀ t ∈ parts, ∀ m ∈ gAdded t.ops, m.Encodable cfg)
    (hgen : ∀ t ∈ parts, GenOnce ((gAdded t.ops).map (told E t.root u))) {op : IndexedConsumer.Op} {a a' : IndexedConsumer.Ans}
    (h : PiecesAnswer E u seek parts op a) (h' : PiecesAnswer E u seek parts op a') : a.strip = a'.strip := by
  cases op <;> cases a <;> (try exact False.elim h) <;> cases a' <;> (try exact False.elim h')
  case content.content.content s q r r' =>
    have e : some r = some r' := Eq.trans (Eq.symm h) h'
    cases e
    rfl
  case original.mapping.mapping p b r r' =>
    exact congrArg IndexedConsumer.Ans.mapping (PiecesFind.unique henc hgen h h')
  case spans.unit.unit => rfl
  all_goals
    obtain ⟨_, rfl⟩ := h
    obtain ⟨_, rfl⟩ := h'
    rfl

/-- The second of two parts. -/
def libPiece : Piece :=
  { offset := ⟨9, 4⟩, root := some "/lib",
    ops := [.add { generated := ⟨1, 0⟩, original := some ⟨1, 0⟩, source := some "c.js" },
      .add { generated := ⟨2, 5⟩, original := some ⟨7, 1⟩, source := some "c.js", name := some "foo" }, .setContent "c.js" (some "C")] }

/-- The first of two parts. -/
def srcPiece : Piece := { offset := ⟨0, 0⟩, root := some "/src", ops := locOps }

/-- Where the map is. -/
def caseUrl : Option String := some "http://ex/js/app.js.map"

theorem srcPiece_sources : srcPiece.sources = ["b.js", "a.js"] := by decide +kernel
theorem libPiece_sources : libPiece.sources = ["c.js"] := by decide +kernel
theorem srcPiece_located : srcPiece.located demoEnv caseUrl = ["http://ex/src/b.js", "http://ex/src/a.js"] := by decide +kernel
theorem libPiece_located : libPiece.located demoEnv caseUrl = ["http://ex/lib/c.js"] := by decide +kernel

theorem pieces_good : ∀ p ∈ [srcPiece, libPiece], p.Good demoEnv caseUrl := by
  have hcount : ∀ p ∈ [srcPiece, libPiece], (gAdded p.ops).length < 1073741824 := by decide
  have hset : ∀ p ∈ [srcPiece, libPiece], ∀ s ∈ p.sources, (sourceUrl demoEnv p.root s caseUrl).toOption.isSome = true ∧
      (Generator.contentKey demoEnv.url p.root s).toOption.isSome = true := by decide +kernel
  have hkeys : ∀ p ∈ [srcPiece, libPiece], ∀ op ∈ p.ops, match op with
      | .setContent s _ => s ∈ p.sources
      | _ => True := by
    intro p hp op hop
    simp only [List.mem_cons, List.not_mem_nil, or_false] at hp
    rcases hp with rfl | rfl
    · rw [srcPiece_sources]
      simp only [srcPiece, locOps, List.mem_cons, List.not_mem_nil, or_false] at hop
      rcases hop with rfl | rfl | rfl | rfl <;> simp
    · rw [libPiece_sources]
      simp only [libPiece, List.mem_cons, List.not_mem_nil, or_false] at hop
      rcases hop with rfl | rfl | rfl <;> simp
  have hok : ∀ {r : Res String}, r.toOption.isSome = true → ∃ t, r = .ok t := by
    intro r h
    cases r with
    | error e => cases h
    | ok t => exact ⟨t, rfl⟩
  intro p hp
  obtain ⟨hS, hN⟩ := tables_small (cfg := demoEnv.cfg) (ops := p.ops) (hcount p hp)
  refine ⟨?_, hS, hN, fun s hs => hok (hset p hp s hs).1, ?_, ?_, ?_, ?_⟩
  · simp only [List.mem_cons, List.not_mem_nil, or_false] at hp
    rcases hp with rfl | rfl
    · intro m hm
      simp only [srcPiece, gAdded, locOps, List.mem_cons, List.not_mem_nil, or_false] at hm
      rcases hm with rfl | rfl | rfl
      · exact .small (by decide) (by decide) rfl (by intro p hp; cases hp; decide) (by intro h; cases h)
      · exact .small (by decide) (by decide) rfl (by intro p hp; cases hp; decide) (by intro h; cases h)
      · exact .small (by decide) (by decide) rfl (by intro p hp; cases hp; decide) (by intro h; cases h)
    · intro m hm
      simp only [libPiece, gAdded, List.mem_cons, List.not_mem_nil, or_false] at hm
      rcases hm with rfl | rfl
      · exact .small (by decide) (by decide) rfl (by intro p hp; cases hp; decide) (by intro h; rfl)
      · exact .small (by decide) (by decide) rfl (by intro p hp; cases hp; decide) (by intro h; cases h)
  · simp only [List.mem_cons, List.not_mem_nil, or_false] at hp
    rcases hp with rfl | rfl
    · rw [srcPiece_located]; decide
    · rw [libPiece_located]; decide
  · rintro s (hs | ⟨v, hv⟩)
    · exact hok (hset p hp s hs).2
    · exact hok (hset p hp s (hkeys p hp _ hv)).2
  · have : ∀ p ∈ [srcPiece, libPiece], 0 ≤ p.offset.line ∧ p.offset.line < 2147483647 := by decide
    exact this p hp
  · have : ∀ p ∈ [srcPiece, libPiece], 0 ≤ p.offset.column ∧ p.offset.column < 2147483647 := by decide
    exact this p hp

/-- The hypotheses hold together, and what is allowed. A position in the second part is told with the located source. The content of
its source is found under its location, and under no relative name, though a consumer of a single map finds it so (C128). -/
theorem C130_case : (∃ (js : List SourceMapJson), List.Forall₂ (Piece.Writes demoEnv) [srcPiece, libPiece] js ∧
      ∃ c : IndexedConsumer demoEnv,
        createConsumer [0, 1] (toStr demoEnv.json (assembled none [srcPiece, libPiece] js)) caseUrl = .ok (some (.indexed c))) ∧
    (∀ p ∈ [srcPiece, libPiece], p.Good demoEnv caseUrl) ∧
    ([srcPiece, libPiece].map Piece.offset).Pairwise Position.Le ∧
    (∀ t ∈ [srcPiece, libPiece], GenOnce ((gAdded t.ops).map (told demoEnv t.root caseUrl))) ∧
    (∀ r, PiecesFind demoEnv caseUrl [srcPiece, libPiece] ⟨10, 20⟩ (some .lub) r ↔
      r = some ⟨⟨2, 5⟩, some ⟨7, 1⟩, some "http://ex/lib/c.js", some "foo", none⟩) ∧
    (∃ seek, (∀ p ∈ [srcPiece, libPiece], p.Seeks demoEnv caseUrl "http://ex/lib/c.js" (seek p)) ∧
      pieceContent demoEnv caseUrl seek (some false) [srcPiece, libPiece] = some (some "C") ∧
      pieceContent demoEnv caseUrl seek none [srcPiece, libPiece] = none) ∧
    (∃ seek, (∀ p ∈ [srcPiece, libPiece], p.Seeks demoEnv caseUrl "/lib/c.js" (seek p)) ∧
      pieceContent demoEnv caseUrl seek (some false) [srcPiece, libPiece] = some none) ∧
    Means demoEnv (some "/lib") caseUrl ["http://ex/lib/c.js"] "/lib/c.js" "http://ex/lib/c.js" := by
  have henc : ∀ t ∈ [srcPiece, libPiece], ∀ m ∈ gAdded t.ops, m.Encodable demoEnv.cfg := fun t ht => (pieces_good t ht).enc
  have hgen : ∀ t ∈ [srcPiece, libPiece], GenOnce ((gAdded t.ops).map (told demoEnv t.root caseUrl)) := by unfold GenOnce; decide +kernel
  have hu : ∀ {p b r}, PiecesFind demoEnv caseUrl [srcPiece, libPiece] p b r →
      ∀ r', PiecesFind demoEnv caseUrl [srcPiece, libPiece] p b r' ↔ r' = r :=
    fun h r' => ⟨fun h' => PiecesFind.unique henc hgen h' h, fun e => e ▸ h⟩
  have h1 : srcPiece.Held demoEnv := ⟨"a.js", by decide +kernel⟩
  have h2 : libPiece.Held demoEnv := ⟨"c.js", by decide +kernel⟩
  have k2 : libPiece.contents demoEnv = ["C"] := by decide +kernel
  have hord : ([srcPiece, libPiece].map Piece.offset).Pairwise Position.Le := by simp [srcPiece, libPiece, Position.Le]
  refine ⟨?_, pieces_good, hord, hgen, hu ?_, ?_, ?_, ?_⟩
  · exact C130_accepted demo_json pieces_good none hord
  · refine .inr ⟨1, _, ⟨rfl, ?_, ?_, ?_⟩, ?_⟩
    · simp [libPiece, Piece.Before, Position.Le]
    · simp [srcPiece, libPiece, Piece.Before, Position.Le]
    · intro j q hj hq
      match j with
      | 0 => cases hj; cases hq
      | j + 1 => omega
    · refine ⟨some ⟨⟨2, 5⟩, some ⟨7, 1⟩, some "http://ex/lib/c.js", some "foo", none⟩, ?_, by decide +kernel⟩
      simp only [Nearest, Option.getD, Piece.within]
      decide +kernel
  · refine ⟨fun _ => "http://ex/lib/c.js", ?_, ?_, ?_⟩
    · intro p hp
      refine ⟨"http://ex/lib/c.js", "http://ex/lib/c.js", by decide +kernel, ?_, by simp⟩
      revert p
      decide +kernel
    · simp only [pieceContent, h1, h2, k2, srcPiece_located, libPiece_located]
      decide +kernel
    · simp only [pieceContent, h1, h2, k2, srcPiece_located, libPiece_located]
      decide +kernel
  · refine ⟨fun p => if p.root = some "/src" then "/src/lib/c.js" else "/lib/lib/c.js", ?_, ?_⟩
    · intro p hp
      simp only [List.mem_cons, List.not_mem_nil, or_false] at hp
      rcases hp with rfl | rfl
      · refine ⟨"/lib/c.js", "/src/lib/c.js", by decide +kernel, by decide +kernel, ?_⟩
        rw [srcPiece_located]; decide +kernel
      · refine ⟨"/lib/c.js", "/lib/lib/c.js", by decide +kernel, by decide +kernel, ?_⟩
        rw [libPiece_located]; decide +kernel
    · simp only [pieceContent, h1, h2, k2, srcPiece_located, libPiece_located]
      decide +kernel
  · exact ⟨"http://ex/lib/c.js", "http://ex/lib/lib/c.js", by decide +kernel, by decide +kernel, by decide +kernel⟩

end RSM
