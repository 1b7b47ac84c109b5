import Verif.Lemmas.Encode
import Verif.Props.SourceUrl
import Verif.Props.Consumer
import Verif.Props.IndexedHistory
import Verif.Dep.Demo
/-! # Sources with spaces and letters outside ASCII: C94

For every URL library that satisfies the contract on percent-encoding (`UrlLib.Encodes`). -/

namespace RSM

open Spec MiniUrl

variable {E : Env}

/-- The string with spaces, quotes, angle brackets and characters outside ASCII percent-encoded. -/
def encodeStr (s : String) : String := String.ofList (encode s.toList)

/-- A source root or URL with such characters. -/
def RawString (s : String) : Prop := Raw s.toList ∧ 2 ≤ s.toList.length

/-- A source with such characters. A path has two characters besides the slash. -/
def RawSource (s : String) : Prop := RawString s ∧ (s.toList.head? = some '/' → 3 ≤ s.toList.length)

/-- The map with sources and root encoded. -/
def SourceMapJson.encoded (m : SourceMapJson) : SourceMapJson :=
  { m with sources := m.sources.map (List.map encodeStr), sourceRoot := m.sourceRoot.map encodeStr }

example : encodeStr "src/my file.js" = "src/my%20file.js" ∧ encodeStr "José/日本.js" = "Jos%C3%A9/%E6%97%A5%E6%9C%AC.js" ∧
    encodeStr "[id].js" = "[id].js" := ⟨by decide +kernel, by decide +kernel, by decide +kernel⟩

/-- A reference of letters that are plain or encoded. -/
theorem rawSource_of {s : String} (h1 : s.toList.getLast? ≠ some ' ')
    (h2 : s.toList.head? ≠ some '/' ∧ s.toList.head? ≠ some ' ') (h3 : 2 ≤ s.toList.length)
    (h4 : ∀ c ∈ s.toList, plainChar c = true ∨ rawChar c = true ∨ c ∈ ['/', '?', '#']) : RawSource s :=
  ⟨⟨⟨h1, [], s.toList, rfl, .inl ⟨rfl, h2⟩, h4⟩, h3⟩, fun h => absurd h h2.1⟩

example : RawSource "src/my file.js" := rawSource_of (by decide) (by decide) (by decide) (by decide)
example : RawSource "José/日本.js" := rawSource_of (by decide) (by decide) (by decide) (by decide)

section

variable {U : UrlLib} (hE : U.Encodes)
include hE

/-- C94, the URL of a source: encoding the source, the root or the URL of the map makes no difference. -/
theorem C94_source_url {root m : Option Text} {s : Text} (hs : Raw s) (hl : 2 ≤ s.length)
    (hl' : root.isSome → s.head? = some '/' → 3 ≤ s.length) (hr : ∀ r ∈ root, Raw r ∧ 2 ≤ r.length)
    (hm : ∀ u ∈ m, Raw u ∧ 2 ≤ u.length) :
    computeSourceUrl U root s m = computeSourceUrl U (root.map encode) (encode s) (m.map encode) := by
  have h1 : computeSourceUrl U (root.map encode) (encode s) (m.map encode) =
      computeSourceUrl U root (encode s) (m.map encode) := by
    cases root with
    | none => rfl
    | some r => exact sourceUrl_encode_root hE (hr r rfl).1 (hr r rfl).2
  have h2 : computeSourceUrl U root (encode s) (m.map encode) = computeSourceUrl U root (encode s) m := by
    cases m with
    | none => rfl
    | some u => exact sourceUrl_encode_map hE (hm u rfl).1 (hm u rfl).2
  rw [h1, h2, sourceUrl_encode hE hs hl hl']

open Written in
/-- C94, which URL that is: the one where C82 finds the encoded source. -/
theorem C94_located (hU : U.Laws) {root m : Option Text} {s : Text} (hs : Raw s) (hl : 2 ≤ s.length)
    (hl' : root.isSome → s.head? = some '/' → 3 ≤ s.length) (hr : ∀ r ∈ root, Raw r ∧ 2 ≤ r.length)
    (hm : ∀ u ∈ m, Raw u ∧ 2 ≤ u.length) {R M : Option Written} {S : Written} {t : Tail}
    (er : root.map encode = R.map text) (es : encode s = S.text ++ t.text) (em : m.map encode = M.map text)
    (hR : ∀ r ∈ R, r.Valid) (hS : S.Valid) (hM : ∀ u ∈ M, u.MapUrl) (ht : t.Valid) (hq : (seen R S).IsRef → t = {})
    (hf : Apart R S M) (hlong : LongEnough R S t M) :
    computeSourceUrl U root s m = .ok ((located R S M).text ++ t.text) := by
  rw [C94_source_url hE hs hl hl' hr hm, er, es, em]
  exact C82_source_url hU hR hS hM ht hq hf hlong

end

/-- The paths of a library: `/srv/my root`, `my file.js`, a map at `http://h.com/out dir/x.map`. -/
example : sourceUrl demoEnv (some "/srv/my root") "my file.js" none = .ok "/srv/my%20root/my%20file.js" ∧
    sourceUrl demoEnv none "José.js" (some "http://h.com/out dir/x.map") = .ok "http://h.com/out%20dir/Jos%C3%A9.js" :=
  ⟨by decide +kernel, by decide +kernel⟩

/-- The condition on the length is needed: one letter is too short, encoded it is not. -/
example : sourceUrl demoEnv none "é" none = .error .unwrap ∧ sourceUrl demoEnv none (encodeStr "é") none = .ok "%C3%A9" :=
  ⟨by decide +kernel, by decide +kernel⟩

theorem sourceUrl_encodeStr (hE : E.url.Encodes) {s : String} (hs : RawSource s) (root u : Option String) :
    sourceUrl E root (encodeStr s) u = sourceUrl E root s u := by
  unfold sourceUrl encodeStr
  rw [String.toList_ofList, sourceUrl_encode hE hs.1.1 hs.1.2 (fun _ => hs.2)]

theorem sourceUrl_encoded (hE : E.url.Encodes) {s : String} {root u : Option String} (hs : RawSource s)
    (hr : ∀ r ∈ root, RawString r) (hu : ∀ x ∈ u, RawString x) :
    sourceUrl E (root.map encodeStr) (encodeStr s) (u.map encodeStr) = sourceUrl E root s u := by
  have e : ∀ o : Option String, (o.map encodeStr).map String.toList = (o.map String.toList).map encode := by
    intro o; cases o <;> simp [encodeStr]
  have hh : ∀ o : Option String, (∀ r ∈ o, RawString r) → ∀ r ∈ o.map String.toList, Raw r ∧ 2 ≤ r.length := by
    intro o ho r hr
    cases o with
    | none => cases hr
    | some x => cases hr; exact ho x rfl
  unfold sourceUrl
  rw [e, e, C94_source_url hE (root := root.map String.toList) hs.1.1 hs.1.2 (fun _ => hs.2) (hh root hr) (hh u hu)]
  simp only [encodeStr, String.toList_ofList]

namespace BasicConsumer

/-- C94, the sources of a consumer: they are those of the map with everything encoded, and the one is made if the other is. -/
theorem _root_.RSM.C94_lists (hE : E.url.Encodes) {m : SourceMapJson} {u : Option String}
    (hs : ∀ l ∈ m.sources, ∀ s ∈ l, RawSource s) (hr : ∀ r ∈ m.sourceRoot, RawString r) (hu : ∀ x ∈ u, RawString x) :
    (fromSourceMapJson m u : Res (BasicConsumer E)).map getSources =
      (fromSourceMapJson m.encoded (u.map encodeStr) : Res (BasicConsumer E)).map getSources := by
  have key : ∀ l : List String, (∀ s ∈ l, RawSource s) →
      (l.map encodeStr).mapM (fun s => sourceUrl E (m.sourceRoot.map encodeStr) s (u.map encodeStr)) =
        l.mapM (fun s => sourceUrl E m.sourceRoot s u) := by
    intro l hl
    induction l with
    | nil => rfl
    | cons s l ih =>
      rw [List.map_cons, List.mapM_cons, List.mapM_cons, sourceUrl_encoded hE (hl s (by simp)) hr hu,
        ih fun s h => hl s (by simp [h])]
  unfold fromSourceMapJson build SourceMapJson.encoded
  cases h : m.sources with
  | none => rfl
  | some l =>
    simp only [Option.map_some, unwrap, Res.ok_bind, key l (hs l h)]
    cases l.mapM fun s => sourceUrl E m.sourceRoot s u <;> rfl

/-- C94, the same for a map in JSON. -/
theorem _root_.RSM.C94_lists_json (hE : E.url.Encodes) {m : SourceMapJson} {u : Option String} {raw raw' : Text}
    (hs : ∀ l ∈ m.sources, ∀ s ∈ l, RawSource s) (hr : ∀ r ∈ m.sourceRoot, RawString r) (hu : ∀ x ∈ u, RawString x)
    (h : fromStr E.json raw = some m) (h' : fromStr E.json raw' = some m.encoded) :
    (new raw u : Res (BasicConsumer E)).map getSources =
      (new raw' (u.map encodeStr) : Res (BasicConsumer E)).map getSources := by
  have hg : ∀ (n : SourceMapJson) (v : Option String), (build n v v : Res (BasicConsumer E)).map getSources =
      (fromSourceMapJson n v : Res (BasicConsumer E)).map getSources := by
    intro n v
    unfold fromSourceMapJson build
    cases n.sources with
    | none => rfl
    | some l =>
      simp only [unwrap, Res.ok_bind]
      cases l.mapM fun s => sourceUrl E n.sourceRoot s v <;> rfl
  simp only [new, h, h', unwrap, Res.ok_bind, hg]
  exact C94_lists hE hs hr hu

theorem lookup_encodeStr (hE : E.url.Encodes) (c : BasicConsumer E) {s : String} (hs : RawSource s) :
    c.lookupIndex (encodeStr s) = c.lookupIndex s := by
  simp only [lookupIndex, sourceUrl_encodeStr hE hs]

/-- What two lookups of the same index differ in. -/
theorem find_encodeStr (hE : E.url.Encodes) (hL : E.maps.Laws) {m : SourceMapJson} {u : Option String}
    {c₀ c : BasicConsumer E} (h : Built m u c₀) {ops : List Op} (hr : c₀.run ops = .ok c) {s : String} (hs : RawSource s) :
    (∃ e, c.findSourceIndex s = .error e ∧ c.findSourceIndex (encodeStr s) = .error e) ∨
      ∃ r k k', c.findSourceIndex s = .ok (r, { c with cache := k }) ∧
        c.findSourceIndex (encodeStr s) = .ok (r, { c with cache := k' }) := by
  have hl := lookup_encodeStr hE c₀ hs
  rcases (h.rel.run hL hr).find s with ⟨e, h1, h2⟩ | ⟨r, k, h1, h2, _⟩ <;>
    rcases (h.rel.run hL hr).find (encodeStr s) with ⟨e', h3, h4⟩ | ⟨r', k', h3, h4, _⟩ <;>
    rw [hl, h1] at h3 <;> cases h3
  · exact .inl ⟨e, h2, h4⟩
  · exact .inr ⟨r, k, k', h2, h4⟩

/-- C94, what a consumer answers about a source after any history: asking for it by its name or by its encoded name is
the same, panics included. -/
theorem _root_.RSM.C94_answers (hE : E.url.Encodes) (hL : E.maps.Laws) {m : SourceMapJson} {u : Option String}
    {c₀ c : BasicConsumer E} (h : Built m u c₀) {ops : List Op} (hr : c₀.run ops = .ok c) {s : String} (hs : RawSource s) :
    (∀ p, (c.sourceContentFor s p).map Prod.fst = (c.sourceContentFor (encodeStr s) p).map Prod.fst) ∧
    (∀ l k b, (c.generatedPositionFor s l k b).map Prod.fst =
      (c.generatedPositionFor (encodeStr s) l k b).map Prod.fst) ∧
    (∀ l k, (c.allGeneratedPositionFor s l k).map Prod.fst =
      (c.allGeneratedPositionFor (encodeStr s) l k).map Prod.fst) := by
  rcases find_encodeStr hE hL h hr hs with ⟨e, h1, h2⟩ | ⟨r, k, k', h1, h2⟩
  · refine ⟨fun p => ?_, fun l k b => ?_, fun l k => ?_⟩
    · simp only [sourceContentFor, h1, h2]
    · simp only [generatedPositionFor, h1, h2]
    · simp only [allGeneratedPositionFor, h1, h2]
  · refine ⟨fun p => ?_, fun l q b => ?_, fun l q => ?_⟩
    · simp only [sourceContentFor, h1, h2]
      cases c.sourceMap.sourcesContent with
      | none => rfl
      | some contents =>
        cases r with
        | none => simp only [Res.ok_bind]; split <;> rfl
        | some i => simp only [Res.ok_bind]; cases index contents (E.cfg.asUsize i) <;> rfl
    · simp only [generatedPositionFor, h1, h2, Res.ok_bind]
      cases r with
      | none => rfl
      | some i =>
        simp only []
        cases checkPosition l q with
        | error e => rfl
        | ok x =>
          have he : ∀ k, ({ c with cache := k } : BasicConsumer E).ensureMappings = c.ensureMappings := fun _ => rfl
          have hrep : ∀ k, ({ c with cache := k } : BasicConsumer E).reportGenerated = c.reportGenerated := fun _ => rfl
          simp only [Res.ok_bind, he, hrep]
          cases c.ensureMappings with
          | error e => rfl
          | ok M =>
            simp only [Res.ok_bind]
            cases E.cfg.arith (l - 1) with
            | error e => rfl
            | ok l' =>
              simp only [Res.ok_bind]
              cases E.maps.generatedLocationFor M (asU32 i) (asU32 l') (asU32 q) (b.getD .glb) with
              | error e => rfl
              | ok y =>
                obtain ⟨y, M'⟩ := y
                simp only [Res.ok_bind]
                cases c.reportGenerated i y <;> rfl
    · simp only [allGeneratedPositionFor, h1, h2, Res.ok_bind]
      cases r with
      | none => rfl
      | some i =>
        simp only []
        split
        · rfl
        · cases checkPosition l (q.getD 0) with
          | error e => rfl
          | ok x =>
            have he : ∀ k, ({ c with cache := k } : BasicConsumer E).ensureMappings = c.ensureMappings := fun _ => rfl
            simp only [Res.ok_bind, he]
            cases c.ensureMappings with
            | error e => rfl
            | ok M =>
              simp only [Res.ok_bind]
              cases E.maps.allGeneratedLocationsFor M (asU32 i) (asU32 l) (some (asU32 (q.getD 0))) <;> rfl

end BasicConsumer

/-- A map with such sources under such a root. -/
def demoSpaces : SourceMapJson :=
  { demoMap with sources := some ["my file.js", "José.js"], sourceRoot := some "/my root" }

example : ((demoConsumer demoSpaces).map BasicConsumer.getSources : Res _) =
      .ok ["/my%20root/my%20file.js", "/my%20root/Jos%C3%A9.js"] ∧
    demoAsk demoSpaces (fun c => c.sourceContentFor "my file.js" none) = .ok (some "ONE") ∧
    demoAsk demoSpaces (fun c => c.sourceContentFor "my%20file.js" none) = .ok (some "ONE") ∧
    demoAsk demoSpaces (fun c => c.generatedPositionFor "José.js" 1 11 none) =
      demoAsk demoSpaces (fun c => c.generatedPositionFor "/my root/Jos%C3%A9.js" 1 11 none) ∧
    demoAsk demoSpaces (fun c => c.generatedPositionFor "José.js" 1 11 none) =
      .ok (some ⟨⟨2, 9⟩, some ⟨0, 11⟩, some "/my%20root/Jos%C3%A9.js", some "baz", none⟩) :=
  ⟨by decide +kernel, by decide +kernel, by decide +kernel, by decide +kernel, by decide +kernel⟩

open BasicConsumer in
/-- C94: two names of the same encoding cannot be told apart. -/
theorem C94_same_place (hE : E.url.Encodes) (hL : E.maps.Laws) {m : SourceMapJson} {u : Option String}
    {c₀ c : BasicConsumer E} (h : Built m u c₀) {ops : List Op} (hr : c₀.run ops = .ok c) {s t : String}
    (hs : RawSource s) (ht : RawSource t) (he : encodeStr s = encodeStr t) (p : Option Bool) :
    (c.sourceContentFor s p).map Prod.fst = (c.sourceContentFor t p).map Prod.fst := by
  rw [(C94_answers hE hL h hr hs).1 p, (C94_answers hE hL h hr ht).1 p, he]

example : RawSource "my file.js" ∧ RawSource "my%20file.js" ∧ encodeStr "my file.js" = encodeStr "my%20file.js" :=
  ⟨rawSource_of (by decide) (by decide) (by decide) (by decide),
    rawSource_of (by decide) (by decide) (by decide) (by decide), by decide +kernel⟩

/-- The content of a source by its two names. -/
theorem content_encodeStr (hE : E.url.Encodes) {c₀ c : BasicConsumer E} (hc : BasicConsumer.Rel c₀ c) {s : String}
    (hs : RawSource s) (p : Option Bool) :
    (c.sourceContentFor s p).map Prod.fst = (c.sourceContentFor (encodeStr s) p).map Prod.fst := by
  have hl := BasicConsumer.lookup_encodeStr hE c₀ hs
  simp only [BasicConsumer.sourceContentFor]
  cases c.sourceMap.sourcesContent with
  | none => rfl
  | some contents =>
    rcases hc.find s with ⟨e, h1, h2⟩ | ⟨r, k, h1, h2, _⟩ <;>
      rcases hc.find (encodeStr s) with ⟨e', h3, h4⟩ | ⟨r', k', h3, h4, _⟩ <;> rw [hl, h1] at h3 <;> cases h3 <;>
      simp only [h2, h4, Res.ok_bind, Res.error_bind] <;> try rfl
    cases r with
    | none => by_cases hp : p.getD true = true <;> simp only [hp] <;> rfl
    | some i => simp only; cases index contents (E.cfg.asUsize i) <;> rfl

open IndexedConsumer in
theorem contentLoop_encodeStr (hE : E.url.Encodes) {s : String} (hs : RawSource s) {p : Option Bool} :
    ∀ {l₀ l : List (IdxSection E)}, SecRel l₀ l →
      (contentLoop s p l).map Prod.fst = (contentLoop (encodeStr s) p l).map Prod.fst := by
  intro l₀ l h
  induction h with
  | nil => rfl
  | cons h1 h2 h3 ih =>
    have e := content_encodeStr hE h2 hs p
    simp only [contentLoop]
    revert e
    cases BasicConsumer.sourceContentFor _ s p with
    | error x =>
      cases BasicConsumer.sourceContentFor _ (encodeStr s) p with
      | error y => intro e; simp only [Except.map, Except.error.injEq] at e; subst e; rfl
      | ok y => intro e; cases e
    | ok x =>
      cases BasicConsumer.sourceContentFor _ (encodeStr s) p with
      | error y => intro e; cases e
      | ok y =>
        intro e
        simp only [Except.map, Except.ok.injEq] at e
        simp only [Res.ok_bind, e]
        cases y.1 with
        | some t => rfl
        | none =>
          revert ih
          cases contentLoop s p _ <;> cases contentLoop (encodeStr s) p _ <;> (intro ih; simp_all [Except.map])

open IndexedConsumer in
/-- C94, indexed maps: the content of a source is found by its encoded name just as well, after any history. -/
theorem C94_indexed (hE : E.url.Encodes) (hL : E.maps.Laws) {m : SourceMapJson} {u : Option String}
    {secs : List (JsonSection SourceMapJson)} (hm : m.sections = some secs) {sch : List Nat}
    (h1 : IsSchedule secs.length sch) {c₀ c : IndexedConsumer E} (e1 : fromSourceMapJson sch m u = .ok c₀)
    {ops : List Op} (hrun : c₀.run ops = .ok c) {s : String} (hs : RawSource s) (p : Option Bool) :
    (c.sourceContentFor s p).map Prod.fst = (c.sourceContentFor (encodeStr s) p).map Prod.fst := by
  rw [content_of_loop, content_of_loop, contentLoop_encodeStr hE hs ((fresh_sections hm h1 e1).run hL hrun).1]

/-- The second of two sections has the source. -/
example : demoAskIndexed [0, 1] { demoIndexed with sections := some [⟨⟨0, 0⟩, demoMap, none⟩, ⟨⟨2, 5⟩, demoSpaces, none⟩] }
      (fun c => c.sourceContentFor "José.js" (some false)) = .ok (some "TWO") ∧
    demoAskIndexed [0, 1] { demoIndexed with sections := some [⟨⟨0, 0⟩, demoMap, none⟩, ⟨⟨2, 5⟩, demoSpaces, none⟩] }
      (fun c => c.sourceContentFor "Jos%C3%A9.js" (some false)) = .ok (some "TWO") :=
  ⟨by decide +kernel, by decide +kernel⟩

/-- C94, `set_source_content` under a source root: the same for the name and the encoded name. Without a root they are
different keys. -/
theorem C94_content_key {U : UrlLib} (hE : U.Encodes) {g : Generator} (hg : g.sourceRoot.isSome) {s : String}
    (hs : RawString s) (content : Option String) :
    g.setSourceContent U s content = g.setSourceContent U (encodeStr s) content := by
  obtain ⟨r, hr⟩ := Option.isSome_iff_exists.1 hg
  have : Generator.contentKey U g.sourceRoot s = Generator.contentKey U g.sourceRoot (encodeStr s) := by
    rw [hr]
    simp only [Generator.contentKey, relativeString, encodeStr, String.toList_ofList,
      relative_encode_source hE hs.1 hs.2]
  simp only [Generator.setSourceContent, this]

/-- Under the root the two names have the same content, without a root they do not. -/
example : (do
      let g ← (Generator.new none (some "http://h.com/my root") true).setSourceContent MiniUrl.lib "http://h.com/my root/my file.js" (some "x")
      Generator.contentOf MiniUrl.lib g (some "http://h.com/my root") "http://h.com/my root/my%20file.js" : Res _) = .ok (some "x") ∧
    (do
      let g ← (Generator.new none none true).setSourceContent MiniUrl.lib "my file.js" (some "x")
      Generator.contentOf MiniUrl.lib g none "my%20file.js" : Res _) = .ok none :=
  ⟨by decide +kernel, by decide +kernel⟩

end RSM
