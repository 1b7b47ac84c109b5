import Verif.Props.SourceUrl
import Verif.Props.Sources
/-! # C60 and C64 for all kinds of source, source root and map URL -/

namespace RSM
open Spec Written BasicConsumer

namespace Spec.Written

/-- A plain source: query and fragment only on one that is not relative, scheme-relative only away from files. -/
def Source (root m : Option Written) (x : Written × Tail) : Prop :=
  x.1.Valid ∧ x.2.Valid ∧ ((seen root x.1).IsRef → x.2 = {}) ∧ Apart root x.1 m

/-- The text of a URL with query and fragment. -/
def full (w : Written) (t : Tail) : String := String.ofList (w.text ++ t.text)

def string (w : Written) : String := String.ofList w.text

end Spec.Written

theorem map_string (o : Option Written) : (o.map string).map String.toList = o.map text := by
  cases o <;> simp [string]

variable {E : Env}

theorem sourceUrl_located (hU : E.url.Laws) {root m : Option Written} (hR : ∀ R ∈ root, R.Valid)
    (hm : ∀ M ∈ m, M.MapUrl) {x : Written × Tail} (hx : Source root m x) (hl : LongEnough root x.1 x.2 m) :
    sourceUrl E (root.map string) (full x.1 x.2) (m.map string) = .ok (full (located root x.1 m) x.2) := by
  simp only [sourceUrl, map_string, full, String.toList_ofList,
    C82_source_url hU hR hx.1 hm hx.2.1 hx.2.2.1 hx.2.2.2 hl, Res.ok_bind, Res.pure_eq]

/-- C64 for plain sources, under any plain root, with any plain map URL: `create_consumer` returns a basic consumer with
the located sources, in order, exactly if every text looked at on the way has two characters at least, and otherwise
panics. -/
theorem C64_exact (hU : E.url.Laws) (schedule : List Nat) {raw : Text} {j : SourceMapJson}
    (hj : fromStr E.json raw = some j) (hsec : j.sections = none) {root m : Option Written}
    (hR : ∀ R ∈ root, R.Valid) (hm : ∀ M ∈ m, M.MapUrl) {srcs : List (Written × Tail)}
    (hsrcs : ∀ x ∈ srcs, Source root m x) (hroot : j.sourceRoot = root.map string)
    (hs : j.sources = some (srcs.map fun x => full x.1 x.2)) :
    ((∀ x ∈ srcs, LongEnough root x.1 x.2 m) →
      ∃ c : BasicConsumer E, createConsumer schedule raw (m.map string) = .ok (some (.basic c)) ∧
        c.getSources = srcs.map fun x => full (located root x.1 m) x.2) ∧
    ((∃ x ∈ srcs, ¬ LongEnough root x.1 x.2 m) →
      ∃ e, createConsumer (E := E) schedule raw (m.map string) = .error e) := by
  constructor
  · intro hl
    have hmap : (srcs.map fun x => full x.1 x.2).mapM (fun s => sourceUrl E j.sourceRoot s (m.map string)) =
        .ok (srcs.map fun x => full (located root x.1 m) x.2) := by
      rw [hroot]
      clear hs
      induction srcs with
      | nil => rfl
      | cons x srcs ih =>
        rw [List.map_cons, List.mapM_cons, sourceUrl_located hU hR hm (hsrcs x (by simp)) (hl x (by simp)), Res.ok_bind,
          ih (fun y hy => hsrcs y (by simp [hy])) (fun y hy => hl y (by simp [hy]))]
        rfl
    obtain ⟨c, hc⟩ : ∃ c : BasicConsumer E, BasicConsumer.fromSourceMapJson j (m.map string) = .ok c := by
      simp only [BasicConsumer.fromSourceMapJson, BasicConsumer.build, hs, unwrap, hmap, Res.ok_bind, Res.pure_eq]
      exact ⟨_, rfl⟩
    refine ⟨c, ?_, ?_⟩
    · simp only [createConsumer, hj, hsec, Option.isSome_none, Bool.false_eq_true, if_false, hc, Res.ok_bind,
        Res.pure_eq]
    · obtain ⟨srcs', urls', h1, h2, _, _, h5, _⟩ := build_ok hc
      rw [hs] at h1
      cases h1
      rw [BasicConsumer.getSources, h5, C07_arrayset_duplicates, Res.ok_inj h2 hmap]
  · rintro ⟨x, hx, hl⟩
    refine create_error hj hsec hs (List.mem_map.2 ⟨x, hx, rfl⟩) fun y hy => ?_
    obtain ⟨h1, h2, h3, h4⟩ := hsrcs x hx
    obtain ⟨e, he⟩ := C82_panics hU hR h1 hm h2 h3 h4 hl
    rw [hroot, map_string, map_string, full, String.toList_ofList, he] at hy
    cases hy

/-- C60 with a source root (`_partial`: see C58 for the collisions): if the source, looked at without the source root, is
not the URL of another source, it is recognised as the first source of its URL. -/
theorem C60_rooted_partial (hU : E.url.Laws) (hL : E.maps.Laws) {raw : Text} {j : SourceMapJson}
    (hj : fromStr E.json raw = some j) {root m : Option Written} (hR : ∀ R ∈ root, R.Valid)
    (hm : ∀ M ∈ m, M.MapUrl) (hroot : j.sourceRoot = root.map string) {c₀ c : BasicConsumer E}
    (h : BasicConsumer.new raw (m.map string) = .ok c₀) {ops : List Op} (hrun : c₀.run ops = .ok c)
    (hlen : c.getSources.length < 2147483648) {srcs : List String} (hsrcs : j.sources = some srcs)
    {x : Written × Tail} (hx : Source root m x) (hx' : Source none m x) (hl : LongEnough root x.1 x.2 m)
    (hl' : LongEnough none x.1 x.2 m) {i : Nat} (hi : srcs[i]? = some (full x.1 x.2))
    (hno : full (located none x.1 m) x.2 ∉ c.getSources) :
    ∃ n, c.getSources[i]? = some (full (located root x.1 m) x.2) ∧ n ≤ i ∧
      IsFirst c.getSources (full (located root x.1 m) x.2) n ∧ c.Knows (full x.1 x.2) n ∧
      ContentAt j c (full x.1 x.2) n := by
  have hb : Built j (m.map string) c₀ := .inl ⟨raw, hj, h⟩
  obtain ⟨srcs', h1, _, h3⟩ := C28_sources hb
  rw [hsrcs] at h1
  cases h1
  obtain ⟨t, h4, h5⟩ := h3 i _ hi
  rw [hroot, sourceUrl_located hU hR hm hx hl] at h4
  cases h4
  rw [← C28_sources_stable hL hb hrun] at h5
  obtain ⟨n, hn, hf⟩ := exists_first h5
  have hst : c.sourceMapUrl = m.map string := by
    rw [(hb.rel.run hL hrun).url]
    simp only [BasicConsumer.new, Res.bind_eq_ok] at h
    obtain ⟨_, _, h⟩ := h
    obtain ⟨_, _, _, _, _, _, _, h⟩ := build_ok h
    exact h
  have hmap : c.sourceMap = j := by
    obtain ⟨_, _, _, _, _, _, hm, _⟩ := hb.spec; exact (hb.rel.run hL hrun).map.trans hm
  have hk : c.Knows (full x.1 x.2) n := by
    refine .inr ⟨_, _, ?_, hno, ?_, hf⟩
    · rw [hst]
      exact sourceUrl_located hU (root := none) (by simp) hm hx' hl'
    · rw [hst, hmap, hroot]
      exact sourceUrl_located hU hR hm hx hl
  exact ⟨n, h5, hn, hf, hk, contentAt hL hb hrun hlen hk⟩

/-- C79 for plain sources, under any plain root, with any plain map URL: `consume` runs the callback on one consumer of the
map in the text with the located sources, or panics without running it, exactly as in C64_exact. -/
theorem C79_exact (hU : E.url.Laws) {raw : Text} {j : SourceMapJson} (hj : fromStr E.json raw = some j)
    {root : Option Written} {m : Written} (hR : ∀ R ∈ root, R.Valid) (hm : m.MapUrl) {srcs : List (Written × Tail)}
    (hsrcs : ∀ x ∈ srcs, Source root (some m) x) (hroot : j.sourceRoot = root.map string)
    (hs : j.sources = some (srcs.map fun x => full x.1 x.2)) :
    ((∀ x ∈ srcs, LongEnough root x.1 x.2 (some m)) →
      ∃ c : BasicConsumer E, Built j (some m.string) c ∧
        c.getSources = (srcs.map fun x => full (located root x.1 (some m)) x.2) ∧
        ∀ {α : Type} (f : BasicConsumer E → Res α), BasicConsumer.consume raw m.string f = f c) ∧
    ((∃ x ∈ srcs, ¬ LongEnough root x.1 x.2 (some m)) →
      ∃ e, ∀ {α : Type} (f : BasicConsumer E → Res α), BasicConsumer.consume raw m.string f = .error e) := by
  have hm' : ∀ M ∈ some m, M.MapUrl := by rintro M ⟨⟩; exact hm
  constructor
  · intro hl
    have hmap : (srcs.map fun x => full x.1 x.2).mapM (fun s => sourceUrl E j.sourceRoot s (some m.string)) =
        .ok (srcs.map fun x => full (located root x.1 (some m)) x.2) := by
      rw [hroot]
      clear hs
      induction srcs with
      | nil => rfl
      | cons x srcs ih =>
        have hx := sourceUrl_located (E := E) hU hR hm' (hsrcs x (by simp)) (hl x (by simp))
        rw [Option.map_some] at hx
        rw [List.map_cons, List.mapM_cons, hx, Res.ok_bind,
          ih (fun y hy => hsrcs y (by simp [hy])) (fun y hy => hl y (by simp [hy]))]
        rfl
    obtain ⟨c, hc, hget⟩ : ∃ c : BasicConsumer E, BasicConsumer.new raw (some m.string) = .ok c ∧
        c.getSources = (srcs.map fun x => full (located root x.1 (some m)) x.2) := by
      simp only [BasicConsumer.new, BasicConsumer.build, hj, hs, unwrap, hmap, Res.ok_bind, Res.pure_eq]
      exact ⟨_, rfl, by simp only [BasicConsumer.getSources, C07_arrayset_duplicates]⟩
    refine ⟨c, .inl ⟨raw, hj, hc⟩, hget, ?_⟩
    intro α f
    simp only [BasicConsumer.consume, hc, Res.ok_bind]
  · rintro ⟨x, hx, hl⟩
    obtain ⟨h1, h2, h3, h4⟩ := hsrcs x hx
    obtain ⟨e, he⟩ := C82_panics hU hR h1 hm' h2 h3 h4 hl
    obtain ⟨e', he'⟩ := mapM_error_of (f := fun s => sourceUrl E j.sourceRoot s (some m.string))
      (List.mem_map.2 ⟨x, hx, rfl⟩ : full x.1 x.2 ∈ srcs.map fun x => full x.1 x.2) (by
        intro b hb
        simp only [sourceUrl, Res.bind_eq_ok] at hb
        obtain ⟨y, hy, _⟩ := hb
        rw [hroot, map_string, full, String.toList_ofList, ← Option.map_some, map_string, he] at hy
        cases hy)
    refine ⟨e', ?_⟩
    intro α f
    simp only [BasicConsumer.consume, BasicConsumer.new, BasicConsumer.build, hj, hs, unwrap, he', Res.ok_bind,
      Res.error_bind]

/-- The crate's own test map under its root, with one source made a full URL, the map at a path. -/
example : ∃ c : BasicConsumer demoEnv,
    createConsumer [] (toStr demoEnv.json { demoRooted with sources := some ["../one.js", "http://h/./two.js?v"] })
      (some "/js/app.map") = .ok (some (.basic c)) ∧ c.getSources = ["/the/one.js", "http://h/two.js?v"] :=
  (C64_exact demo_url [] (C26_roundtrip_flat_partial _ demo_json _ (by decide) rfl) rfl
    (root := some (.path ⟨["the".toList], "root".toList⟩)) (m := some (.path ⟨["js".toList], "app.map".toList⟩))
    (by rintro R ⟨⟩; show Ref.Valid _; decide)
    (by rintro M ⟨⟩; exact ⟨by show Ref.Valid _; decide, by simp [IsRef]⟩)
    (srcs := [(.ref ⟨["..".toList], "one.js".toList⟩, {}),
      (.url ⟨"http".toList, ⟨"h".toList, none⟩⟩ ⟨[".".toList], "two.js".toList⟩, ⟨some "v".toList, none⟩)])
    (by
      intro x hx
      rcases List.mem_cons.1 hx with rfl | hx
      · exact ⟨⟨by decide, by decide⟩, noTail_valid, fun _ => rfl,
          ⟨by rintro R ⟨⟩ h; exact h.elim, by rintro M ⟨⟩ h; exact h.elim⟩⟩
      · rw [List.mem_singleton.1 hx]
        exact ⟨⟨by decide, by decide⟩, by unfold Tail.Valid; decide, by simp [seen, unslashed, IsRef],
          ⟨by rintro R ⟨⟩ h; exact h.elim, by rintro M ⟨⟩ h; exact h.elim⟩⟩)
    rfl rfl).1 (by
      intro x hx
      rcases List.mem_cons.1 hx with rfl | hx
      · exact ⟨by decide, by decide, by rintro R ⟨⟩; decide, by rintro M ⟨⟩; decide⟩
      · rw [List.mem_singleton.1 hx]
        exact ⟨by decide, by decide, by rintro R ⟨⟩; decide, by rintro M ⟨⟩; decide⟩)

/-- Under its root the source of the map is recognised, though not by its URL without the root. -/
example : (do let c ← BasicConsumer.new (E := demoEnv) (toStr demoEnv.json demoRooted) (some "http://ex/js/app.js.map")
              let r ← c.sourceContentFor "one.js" (some false)
              pure (c.getSources, r.1) : Res _) =
    .ok (["http://ex/the/root/one.js", "http://ex/the/root/two.js"], some "ONE") := by
  simp only [BasicConsumer.new, C26_roundtrip_flat_partial demoEnv.json demo_json demoRooted (by decide) rfl]
  decide +kernel

example : sourceUrl demoEnv none "one.js" (some "http://ex/js/app.js.map") = .ok "http://ex/js/one.js" := by decide +kernel

end RSM
