import Verif.Props.Generator
import Verif.Dep.Url
/-! # C81: no shorter text describes the same segments -/

namespace RSM
open Spec

/-- C81. No `mappings` text with the segments of the emitted one is shorter: nothing redundant is emitted, neither
digits nor separators, at the end or elsewhere. -/
theorem C81_shortest (U : UrlLib) (cfg : Cfg) (file root : Option String) (skip : Bool)
    (ops : List GOp) (g g' : Generator) (j : SourceMapJson)
    (henc : ∀ m ∈ gAdded ops, m.Encodable cfg)
    (hS : (firstOccurrences ((gAdded ops).filterMap Mapping.source)).length < cfg.vlqLimit)
    (hN : (firstOccurrences ((gAdded ops).filterMap Mapping.name)).length < cfg.vlqLimit)
    (h : (Generator.new file root skip).run U cfg ops = .ok g) (hj : g.asJson U cfg = .ok (j, g')) :
    ∃ text raws, j.mappings = some text ∧ decodeMappings text.toList = some raws ∧
      ∀ other, decodeMappings other = some raws → text.toList.length ≤ other.length := by
  obtain ⟨S, N, out, t, l, _, _, _, _, _, j3, _, _, _, hd, hmin⟩ := output_array henc hS hN h hj
  refine ⟨String.ofList t, _, j3, by simpa using hd, fun other ho => ?_⟩
  rw [String.toList_ofList]
  exact hmin other (ho.trans hd.symm)

/-- Two mappings, on lines 1 and 3. -/
def shortOps : List GOp :=
  [.add ⟨⟨1, 0⟩, some ⟨1, 0⟩, some "a.js", none, none⟩, .add ⟨⟨3, 20⟩, none, none, none, none⟩]

/-- Their text has eight characters; no text of seven says the same. -/
example (other : Text) (h : decodeMappings other = some [⟨0, 0, some ⟨0, 0, 0, none⟩⟩, ⟨2, 20, none⟩]) :
    8 ≤ other.length := by
  have hrun : (((Generator.new none none false).run MiniUrl.lib ⟨true, true⟩ shortOps).toOption.bind fun g =>
      (g.asJson MiniUrl.lib ⟨true, true⟩).toOption.map fun x => x.1.mappings) = some (some "AAAA;;oB") := by
    decide +kernel
  obtain ⟨g, hg⟩ : ∃ g, (Generator.new none none false).run MiniUrl.lib ⟨true, true⟩ shortOps = .ok g := ⟨_, rfl⟩
  rw [hg] at hrun
  obtain ⟨j, g', hj, hm⟩ : ∃ j g', g.asJson MiniUrl.lib ⟨true, true⟩ = .ok (j, g') ∧ j.mappings = some "AAAA;;oB" := by
    cases e : g.asJson MiniUrl.lib ⟨true, true⟩ with
    | error p => simp [Except.toOption, e] at hrun
    | ok x => exact ⟨x.1, x.2, rfl, by simpa [Except.toOption, e] using hrun⟩
  obtain ⟨text, raws, h1, h2, h3⟩ := C81_shortest MiniUrl.lib _ _ _ _ _ _ _ _ (by
      intro m hm
      simp only [shortOps, gAdded, List.mem_cons, List.not_mem_nil, or_false] at hm
      rcases hm with rfl | rfl
      · exact ⟨by decide, ⟨by decide, by decide⟩, rfl, by intro p hp; cases hp; decide, by decide⟩
      · exact ⟨by decide, ⟨by decide, by decide⟩, rfl, (by simp), by decide⟩) (by decide) (by decide) hg hj
  have e : text = "AAAA;;oB" := Option.some.inj (h1.symm.trans hm)
  subst e
  have e2 : raws = [⟨0, 0, some ⟨0, 0, 0, none⟩⟩, ⟨2, 20, none⟩] := by
    have : decodeMappings "AAAA;;oB".toList = some [⟨0, 0, some ⟨0, 0, 0, none⟩⟩, ⟨2, 20, none⟩] := by decide +kernel
    exact Option.some.inj (h2.symm.trans this)
  subst e2
  exact h3 other h

/-- Such longer texts exist. -/
example : decodeMappings "gAAAA;;oB;;".toList = some [⟨0, 0, some ⟨0, 0, 0, none⟩⟩, ⟨2, 20, none⟩] := by decide +kernel

end RSM
