import Verif.Props.Contents
import Verif.Dep.Demo
/-! # Property C102: contents and mappings do not get in each other's way -/

namespace RSM

open Spec

/-- The call is a `set_source_content`. -/
def GOp.isContent : GOp → Bool
  | .setContent _ _ => true
  | _ => false

@[simp] theorem isContent_add (m : Mapping) : (GOp.add m).isContent = false := rfl
@[simp] theorem isContent_asJson : GOp.asJson.isContent = false := rfl
@[simp] theorem isContent_set (s : String) (c : Option String) : (GOp.setContent s c).isContent = true := rfl

/-- The two histories make the same calls of `set_source_content` in the same order, and the same other calls in the same
order; how the former are interleaved with the latter is left open. -/
def SameButInterleaved (ops₁ ops₂ : List GOp) : Prop :=
  ops₁.filter GOp.isContent = ops₂.filter GOp.isContent ∧
  ops₁.filter (fun op => !op.isContent) = ops₂.filter (fun op => !op.isContent)

theorem mlOps_filter (ops : List GOp) : mlOps (ops.filter fun op => !op.isContent) = mlOps ops := by
  induction ops with
  | nil => rfl
  | cons op ops ih => cases op <;> simp [mlOps, ih]

theorem gAdded_filter (ops : List GOp) : gAdded (ops.filter fun op => !op.isContent) = gAdded ops := by
  induction ops with
  | nil => rfl
  | cons op ops ih => cases op <;> simp [gAdded, ih]

theorem contentsRun_filter (U : UrlLib) (root : Option String) (ops : List GOp) :
    ∀ c, contentsRun U root c (ops.filter GOp.isContent) = contentsRun U root c ops := by
  induction ops with
  | nil => intro; rfl
  | cons op ops ih =>
    intro c
    cases op with
    | add m => simpa [contentsRun] using ih c
    | asJson => simpa [contentsRun] using ih c
    | setContent s v =>
      rw [List.filter_cons_of_pos (isContent_set s v)]
      simp only [contentsRun, ih]

/-- C102: two histories that differ only in how the calls of `set_source_content` are interleaved with the others leave
the same generator behind, if both return. -/
theorem C102_interleaving (U : UrlLib) (cfg : Cfg) {g g₁ g₂ : Generator} {ops₁ ops₂ : List GOp}
    (h : SameButInterleaved ops₁ ops₂) (h₁ : g.run U cfg ops₁ = .ok g₁) (h₂ : g.run U cfg ops₂ = .ok g₂) : g₁ = g₂ := by
  obtain ⟨a1, a2, a3, a4, a5, a6, a7⟩ := gRun_ok _ _ _ h₁
  obtain ⟨b1, b2, b3, b4, b5, b6, b7⟩ := gRun_ok _ _ _ h₂
  have e1 : mlOps ops₁ = mlOps ops₂ := by rw [← mlOps_filter, h.2, mlOps_filter]
  have e2 : gAdded ops₁ = gAdded ops₂ := by rw [← gAdded_filter, h.2, gAdded_filter]
  rw [← contentsRun_filter, h.1, contentsRun_filter, b7] at a7
  rw [e1, b4] at a4
  obtain ⟨x1, x2, x3, x4, x5, x6, x7⟩ := g₁
  obtain ⟨y1, y2, y3, y4, y5, y6, y7⟩ := g₂
  simp only [Except.ok.injEq] at *
  simp_all

/-! ## Without a source root -/

/-- The effect of the calls of `set_source_content` on the contents. -/
def contentsAfter (c : HMap String String) : List GOp → HMap String String
  | [] => c
  | .setContent s v :: ops => contentsAfter (setContents c s v) ops
  | _ :: ops => contentsAfter c ops

theorem asJson_contents (U : UrlLib) (cfg : Cfg) {g : Generator} (hr : g.sourceRoot = none) (c : HMap String String) :
    (({ g with sourceContents := c } : Generator).asJson U cfg).map Prod.snd =
      ((g.asJson U cfg).map Prod.snd).map fun g' => { g' with sourceContents := c } := by
  have hgen : ∀ (g : Generator) (l : List String), ∃ x, Generator.generateSourcesContents U g none l = .ok x := by
    intro g l
    induction l with
    | nil => exact ⟨_, rfl⟩
    | cons s l ih =>
      obtain ⟨x, hx⟩ := ih
      exact ⟨g.sourceContents.get? s :: x, by simp only [Generator.generateSourcesContents, Generator.contentOf,
        Generator.contentKey, Res.ok_bind, Res.pure_eq, hx]⟩
  have hcont : ∀ g : Generator, g.sourceRoot = none → ∃ x, g.sourcesContent U = .ok x := by
    intro g hr
    unfold Generator.sourcesContent
    split
    · obtain ⟨x, hx⟩ := hgen g g.sources.toVec
      exact ⟨some (x.filterMap id), by simp only [hr, hx, Res.ok_bind, Res.pure_eq]⟩
    · exact ⟨_, rfl⟩
  obtain ⟨x, hx⟩ := hcont g hr
  obtain ⟨y, hy⟩ := hcont { g with sourceContents := c } hr
  simp only [Generator.asJson, hx, hy, Res.ok_bind, Generator.serializeMappings]
  cases g.mappings.toArray cfg with
  | error e => rfl
  | ok z =>
    simp only [Res.ok_bind]
    cases serializeLoop cfg g.sources g.names SerState.init none z.1 <;> rfl

theorem run_split (U : UrlLib) (cfg : Cfg) : ∀ (ops : List GOp) (g : Generator), g.sourceRoot = none →
    ∀ c, ({ g with sourceContents := c } : Generator).run U cfg ops =
      (g.run U cfg (ops.filter fun op => !op.isContent)).map
        fun g' => { g' with sourceContents := contentsAfter c (ops.filter GOp.isContent) } := by
  intro ops
  induction ops with
  | nil => intro g _ c; rfl
  | cons op ops ih =>
    intro g hr c
    have hroot : ∀ {op g1}, g.step U cfg op = .ok g1 → g1.sourceRoot = none := by
      intro op g1 hs
      have hrun : g.run U cfg [op] = .ok g1 := by simp only [Generator.run, hs, Res.ok_bind]
      rw [(gRun_ok _ _ _ hrun).2.1, hr]
    cases op with
    | setContent s v =>
      have : (({ g with sourceContents := c } : Generator).step U cfg (.setContent s v)) =
          .ok { g with sourceContents := setContents c s v } := by
        simp only [Generator.step, Generator.setSourceContent, hr, Generator.contentKey, Res.ok_bind]
        cases v <;> rfl
      simp only [Generator.run, this, Res.ok_bind]
      exact ih g hr _
    | add m =>
      have : (({ g with sourceContents := c } : Generator).step U cfg (.add m)) =
          (g.step U cfg (.add m)).map fun g' => { g' with sourceContents := c } := by
        simp only [Generator.step, Generator.addMapping]
        cases g.mappings.add cfg m <;> rfl
      simp only [isContent_add, Bool.not_false, List.filter_cons_of_pos, Bool.false_eq_true,
        not_false_eq_true, List.filter_cons_of_neg, Generator.run, this]
      cases hs : g.step U cfg (.add m) with
      | error e => rfl
      | ok g1 =>
        exact ih g1 (hroot hs) c
    | asJson =>
      have : (({ g with sourceContents := c } : Generator).step U cfg .asJson) =
          (g.step U cfg .asJson).map fun g' => { g' with sourceContents := c } := by
        have := asJson_contents U cfg hr c
        simp only [Generator.step]
        revert this
        cases g.asJson U cfg <;> cases ({ g with sourceContents := c } : Generator).asJson U cfg <;> exact id
      simp only [isContent_asJson, Bool.not_false, List.filter_cons_of_pos, Bool.false_eq_true,
        not_false_eq_true, List.filter_cons_of_neg, Generator.run, this]
      cases hs : g.step U cfg .asJson with
      | error e => rfl
      | ok g1 =>
        exact ih g1 (hroot hs) c

/-- C102, without a source root: such histories end alike in any case, be it with a panic. -/
theorem C102_no_root (U : UrlLib) (cfg : Cfg) {g : Generator} (hr : g.sourceRoot = none) {ops₁ ops₂ : List GOp}
    (h : SameButInterleaved ops₁ ops₂) : g.run U cfg ops₁ = g.run U cfg ops₂ := by
  have h₁ := run_split U cfg ops₁ g hr g.sourceContents
  have h₂ := run_split U cfg ops₂ g hr g.sourceContents
  rw [h.1, h.2] at h₁
  exact h₁.trans h₂.symm

/-! ## Cases -/

/-- Two contents, an addition and a serialisation: all contents first, or all last. -/
def contentsFirst : List GOp :=
  [.setContent "a.js" (some "x"), .setContent "b.js" none, .add { generated := ⟨1, 0⟩ }, .asJson]

def contentsLast : List GOp :=
  [.add { generated := ⟨1, 0⟩ }, .asJson, .setContent "a.js" (some "x"), .setContent "b.js" none]

theorem contents_interleaved : SameButInterleaved contentsFirst contentsLast := ⟨rfl, rfl⟩

example (U : UrlLib) (cfg : Cfg) (file : Option String) (skip : Bool) :
    (Generator.new file none skip).run U cfg contentsFirst = (Generator.new file none skip).run U cfg contentsLast :=
  C102_no_root U cfg rfl contents_interleaved

theorem Res.of_isOk {α : Type} {x : Res α} (h : x.isOk = true) : ∃ a, x = .ok a := by
  cases x with
  | ok a => exact ⟨a, rfl⟩
  | error e => cases h

theorem Res.of_not_isOk {α : Type} {x : Res α} (h : x.isOk = false) : ∃ e, x = .error e := by
  cases x with
  | ok a => cases h
  | error e => exact ⟨e, rfl⟩

/-- Both histories return, under a source root as well. -/
example : ∃ g, (Generator.new none (some "/lib") false).run MiniUrl.lib ⟨true, true⟩ contentsFirst = .ok g ∧
    (Generator.new none (some "/lib") false).run MiniUrl.lib ⟨true, true⟩ contentsLast = .ok g := by
  obtain ⟨g₁, h₁⟩ := Res.of_isOk (x := (Generator.new none (some "/lib") false).run MiniUrl.lib ⟨true, true⟩ contentsFirst)
    (by decide +kernel)
  obtain ⟨g₂, h₂⟩ := Res.of_isOk (x := (Generator.new none (some "/lib") false).run MiniUrl.lib ⟨true, true⟩ contentsLast)
    (by decide +kernel)
  exact ⟨g₁, h₁, C102_interleaving _ _ contents_interleaved h₁ h₂ ▸ h₂⟩

/-- C102, under a source root: whether a serialisation panics may depend on the interleaving. Here the empty text is a
source of a mapping; `util::relative` panics for it, but it is only asked for if there are contents. -/
theorem C102_root_panics : ∃ (ops₁ ops₂ : List GOp) (g : Generator) (e : Panic), SameButInterleaved ops₁ ops₂ ∧
    (Generator.new none (some "/lib") false).run MiniUrl.lib ⟨true, true⟩ ops₁ = .ok g ∧
    (Generator.new none (some "/lib") false).run MiniUrl.lib ⟨true, true⟩ ops₂ = .error e := by
  obtain ⟨g, h₁⟩ := Res.of_isOk (x := (Generator.new none (some "/lib") false).run MiniUrl.lib ⟨true, true⟩
    [.add { generated := ⟨1, 0⟩, original := some ⟨1, 0⟩, source := some "" }, .asJson, .setContent "a.js" (some "x")])
    (by decide +kernel)
  obtain ⟨e, h₂⟩ := Res.of_not_isOk (x := (Generator.new none (some "/lib") false).run MiniUrl.lib ⟨true, true⟩
    [.add { generated := ⟨1, 0⟩, original := some ⟨1, 0⟩, source := some "" }, .setContent "a.js" (some "x"), .asJson])
    (by decide +kernel)
  exact ⟨_, _, g, e, ⟨by rfl, by rfl⟩, h₁, h₂⟩

end RSM
