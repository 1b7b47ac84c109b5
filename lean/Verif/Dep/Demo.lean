import Verif.Model.Indexed
import Verif.Dep.Json
import Verif.Dep.Mappings
import Verif.Dep.Url
/-! # A concrete environment for examples

The instances of the contracts together, and two small maps. -/

namespace RSM

/-- Equality of results, for examples by computation. -/
instance [DecidableEq α] : DecidableEq (Res α)
  | .ok a, .ok b => if h : a = b then isTrue (by rw [h]) else isFalse (fun e => h (by injection e))
  | .error a, .error b => if h : a = b then isTrue (by rw [h]) else isFalse (fun e => h (by injection e))
  | .ok _, .error _ => isFalse (fun e => nomatch e)
  | .error _, .ok _ => isFalse (fun e => nomatch e)

abbrev demoEnv : Env := ⟨⟨true, true⟩, MiniUrl.lib, SimpleMap.lib, jsonText⟩

/-- `/repo/src/constants.rs` 39-46, `testMapNoSourceRoot`, a map of the crate's tests. The contents
are added here; the map of the tests has none. -/
def demoMap : SourceMapJson :=
  { version := 3, file := some "min.js", names := some ["bar", "baz", "n"]
    sources := some ["one.js", "two.js"], sourcesContent := some ["ONE", "TWO"]
    mappings := some "CAAC,IAAI,IAAM,SAAUA,GAClB,OAAOC,IAAID;CCDb,IAAI,IAAM,SAAUE,GAClB,OAAOA" }

/-- The same under the source root of `/repo/src/constants.rs` 21-29, `testMap`. -/
def demoRooted : SourceMapJson := { demoMap with sourceRoot := some "/the/root" }

/-- An indexed map with two sections. -/
def demoIndexed : SourceMapJson :=
  { version := 3, file := some "min.js"
    sections := some [⟨⟨0, 0⟩, demoMap, none⟩, ⟨⟨2, 5⟩, demoRooted, none⟩] }

theorem demo_json : demoEnv.json.Laws := jsonText_laws
theorem demo_maps : demoEnv.maps.Laws := simpleMap_laws
theorem demo_total : demoEnv.maps.Total := simpleMap_total
theorem demo_url : demoEnv.url.Laws := MiniUrl.laws

/-- The basic consumer of a map, if it can be built. -/
def demoConsumer (m : SourceMapJson) : Res (BasicConsumer demoEnv) := BasicConsumer.fromSourceMapJson m none

example : ((demoConsumer demoMap).map BasicConsumer.getSources : Res _) = .ok ["one.js", "two.js"] := by decide +kernel
example : ((demoConsumer demoRooted).map BasicConsumer.getSources : Res _) = .ok ["/the/root/one.js", "/the/root/two.js"] := by
  decide +kernel

/-- The answer of a basic consumer of a map to one call. -/
def demoAsk {α : Type} (m : SourceMapJson) (f : BasicConsumer demoEnv → Res (α × BasicConsumer demoEnv)) : Res α := do
  let c ← demoConsumer m
  let r ← f c
  pure r.1

/-- The answer of an indexed consumer of a map to one call, for the workers in order. -/
def demoAskIndexed {α : Type} (schedule : List Nat) (m : SourceMapJson)
    (f : IndexedConsumer demoEnv → Res (α × IndexedConsumer demoEnv)) : Res α := do
  let c ← IndexedConsumer.fromSourceMapJson schedule m none
  let r ← f c
  pure r.1

end RSM
