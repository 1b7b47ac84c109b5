import Verif.Model.Url
/-! # `src/util.rs`: URL handling (lines 60-358)

The comparison functions of `util.rs` are in `Verif/Model/Mapping.lean`.
-/

namespace RSM

/-- `str::split(c)` for a character `c`: always at least one piece. -/
def splitChar (c : Char) : Text → List Text
  | [] => [[]]
  | a :: s =>
    match splitChar c s with
    | [] => [[a]]
    | p :: ps => if a = c then [] :: p :: ps else (a :: p) :: ps

/-- `Vec<&str>::join(sep)`. -/
def joinSep (sep : Text) : List Text → Text
  | [] => []
  | [p] => p
  | p :: ps => p ++ sep ++ joinSep sep ps

/-- `/repo/src/util.rs` 64, `PROTOCOL`. -/
def protocol : Text := ['h', 't', 't', 'p', ':']
/-- `/repo/src/util.rs` 68, `PROTOCOL_AND_HOST`. -/
def protocolAndHost : Text := protocol ++ ['/', '/', 'h', 'o', 's', 't']

/-- `/repo/src/util.rs` 65, the character class `[A-Za-z0-9\+\-\.]`. -/
def isSchemeChar (c : Char) : Bool :=
  ('A' ≤ c ∧ c ≤ 'Z') || ('a' ≤ c ∧ c ≤ 'z') || ('0' ≤ c ∧ c ≤ '9') || c = '+' || c = '-' || c = '.'

/-- Does the text, after some class characters, go on with `:/`? -/
def schemeRest : Text → Bool
  | ':' :: '/' :: _ => true
  | c :: s => isSchemeChar c && schemeRest s
  | [] => false

/-- `/repo/src/util.rs` 65-67: does `^[A-Za-z0-9\+\-\.]+:/` match? At least one class character,
then `:/` (`:` is not in the class, so there is no ambiguity in the repetition). -/
def absoluteScheme : Text → Bool
  | [] => false
  | c :: s => isSchemeChar c && schemeRest s

/-- `/repo/src/util.rs` 71-77. -/
inductive UrlType where
  | absolute
  | pathAbsolute
  | pathRelative
  | schemeRelative
deriving DecidableEq, Repr

/-- `/repo/src/util.rs` 79-94, `get_url_type`: the first two characters are unwrapped. -/
def getUrlType (input : Text) : Res UrlType :=
  match input with
  | [] => .error .unwrap
  | [_] => .error .unwrap
  | first :: second :: _ =>
    if first = '/' then
      if second = '/' then .ok .schemeRelative else .ok .pathAbsolute
    else if absoluteScheme input then .ok .absolute
    else .ok .pathRelative

/-- `str::contains`: the needle is a prefix of some suffix. -/
def containsText : Text → Text → Bool
  | [], needle => needle.isPrefixOf []
  | c :: s, needle => needle.isPrefixOf (c :: s) || containsText s needle

/-- `format!("{}{}", prefix, id)`. -/
def segmentName (pfx : Text) (id : Nat) : Text := pfx ++ Nat.toDigits 10 id

/-- The loop of `/repo/src/util.rs` 97-104, bounded by `fuel` rounds (C49 shows that the bound
used is never reached). Simplification: `id` is `i32` in the code; its overflow would need an
input of more than `10^9` characters. -/
def uniqueLoop (pfx input : Text) : Nat → Nat → Text
  | 0, id => segmentName pfx id
  | fuel + 1, id =>
    if !containsText input (segmentName pfx id) then segmentName pfx id
    else uniqueLoop pfx input fuel (id + 1)

/-- `/repo/src/util.rs` 96-105, `build_unique_segment`. -/
def buildUniqueSegment (pfx input : Text) : Text :=
  uniqueLoop pfx input ((input.length + 1) * (input.length + 1)) 0

/-- `input.split("..").count() - 1`: the non-overlapping occurrences of `..` from the left. -/
def countDotDot : Text → Nat
  | '.' :: '.' :: s => countDotDot s + 1
  | _ :: s => countDotDot s
  | [] => 0

/-- `/repo/src/util.rs` 107-131, `build_safe_base`. -/
def buildSafeBase (input : Text) : Text :=
  let maxDotParts := countDotDot input
  let segment := buildUniqueSegment ['p'] input
  protocolAndHost ++ ['/'] ++ (List.replicate maxDotParts (segment ++ ['/'])).flatten

/-- `/repo/src/util.rs` 144-150: drop the common leading parts of both lists. -/
def dropCommon : List Text → List Text → List Text × List Text
  | t :: ts, r :: rs => if t = r then dropCommon ts rs else (t :: ts, r :: rs)
  | ts, rs => (ts, rs)

/-- `/repo/src/util.rs` 137-157: the relative path from one URL path to another. -/
def relativePath (rootPath targetPath : Text) : Text :=
  let targetParts := splitChar '/' targetPath
  let rootParts := splitChar '/' rootPath
  let rootParts := if rootParts.getLast? = some [] then rootParts.dropLast else rootParts
  let r := dropCommon targetParts rootParts
  joinSep ['/'] (r.2.map (fun _ => ['.', '.']) ++ r.1)

section
variable (U : UrlLib)

/-- `Url::parse(..).unwrap()`. -/
def parseUrl (s : Text) : Res U.Url := unwrap (U.parse s)
/-- `url.join(..).unwrap()`. -/
def joinUrl (u : U.Url) (s : Text) : Res U.Url := unwrap (U.join u s)

/-- `/repo/src/util.rs` 133-167, `compute_relative_url`. -/
def computeRelativeUrl (rootUrl targetUrl : Text) : Res Text := do
  let root ← parseUrl U rootUrl
  let target ← parseUrl U targetUrl
  let rel := relativePath (U.path root) (U.path target)
  let rel := match U.query target with
    | some q => rel ++ q
    | none => rel
  let rel := match U.fragment target with
    | some f => rel ++ f
    | none => rel
  pure rel

/-- `/repo/src/util.rs` 169-187, `create_safe_handler`. -/
def safeHandler (cb : U.Url → U.Url) (input : Text) : Res Text := do
  let t ← getUrlType input
  let base := buildSafeBase input
  let urlx ← parseUrl U base
  let urlx ← joinUrl U urlx input
  let result := U.asStr (cb urlx)
  match t with
  | .absolute => pure result
  | .schemeRelative => pure (result.drop protocol.length)
  | .pathAbsolute => pure (result.drop protocolAndHost.length)
  | .pathRelative => computeRelativeUrl U base result

/-- `/repo/src/util.rs` 194-196: the first match of `/?$` is replaced by `/`, that is, a final
slash is added if missing. -/
def withFinalSlash (p : Text) : Text := if p.getLast? = some '/' then p else p ++ ['/']

/-- `/repo/src/util.rs` 192-198, `ENSURE_DIRECTORY`. -/
def ensureDirectory : Text → Res Text :=
  safeHandler U (fun u => U.setPath u (withFinalSlash (U.path u)))

/-- `/repo/src/util.rs` 201-208: drop a non-empty last segment, then concatenate the segments
with nothing between them. -/
def trimmedPath (p : Text) : Text :=
  let segs := splitChar '/' p
  let segs := if segs.getLast? ≠ some [] then segs.dropLast else segs
  joinSep [] segs

/-- `/repo/src/util.rs` 200-209, `TRIM_FILENAME`. -/
def trimFilename : Text → Res Text :=
  safeHandler U (fun u => U.setPath u (trimmedPath (U.path u)))

/-- `/repo/src/util.rs` 211, `NORMALIZE`. -/
def normalize : Text → Res Text := safeHandler U id

/-- `/repo/src/util.rs` 214-240, `replace_if_possible`. -/
def replaceIfPossible (root target : Text) : Res (Option Text) := do
  let urlType ← getUrlType root
  let targetType ← getUrlType target
  if urlType ≠ targetType then pure none
  else do
    let base := buildSafeBase (root ++ target)
    let b ← parseUrl U base
    let rootUrl ← joinUrl U b root
    let targetUrl ← joinUrl U b target
    match U.join targetUrl [] with
    | none => pure none
    | some _ =>
      if U.scheme targetUrl ≠ U.scheme rootUrl ∨ U.username targetUrl ≠ U.username rootUrl ∨
          U.password targetUrl ≠ U.password rootUrl ∨ U.host targetUrl ≠ U.host rootUrl ∨
          U.port targetUrl ≠ U.port rootUrl then pure none
      else do
        let r ← computeRelativeUrl U root target
        pure (some r)

/-- `/repo/src/util.rs` 242-247, `relative`. -/
def relative (root target : Text) : Res Text := do
  let r ← replaceIfPossible U root target
  match r with
  | none => normalize U target
  | some r => pure r

/-- `/repo/src/util.rs` 249-259, `with_base`. -/
def withBase (url : Text) (base : Option Text) : Res Text :=
  match base with
  | some base => do
    let b ← parseUrl U base
    let u ← joinUrl U b url
    pure (U.asStr u)
  | none => pure url

/-- `/repo/src/util.rs` 261-309, `join`. -/
def joinPaths (root path : Text) : Res Text := do
  let pathT ← getUrlType path
  let rootT ← getUrlType root
  let root ← ensureDirectory U root
  if pathT = .absolute then withBase U path none
  else if rootT = .absolute then withBase U path (some root)
  else if pathT = .schemeRelative then normalize U path
  else if rootT = .schemeRelative then do
    let b ← withBase U root (some protocolAndHost)
    let r ← withBase U path (some b)
    pure (r.drop protocol.length)
  else if pathT = .pathAbsolute then normalize U path
  else if rootT = .pathAbsolute then do
    let b ← withBase U root (some protocolAndHost)
    let r ← withBase U path (some b)
    pure (r.drop protocolAndHost.length)
  else do
    let base := buildSafeBase (path ++ root)
    let b ← withBase U root (some base)
    let newPath ← withBase U path (some b)
    computeRelativeUrl U base newPath

/-- `source_url.replacen("/", "", 1)`: remove the first slash, wherever it is. -/
def removeFirstSlash : Text → Text
  | [] => []
  | c :: s => if c = '/' then s else c :: removeFirstSlash s

/-- `/repo/src/util.rs` 311-358, `compute_source_url`. -/
def computeSourceUrl (sourceRoot : Option Text) (sourceUrl : Text) (sourceMapUrl : Option Text) :
    Res Text := do
  let sourceUrl ← match sourceRoot with
    | some _ => do
      let t ← getUrlType sourceUrl
      pure (if t = .pathAbsolute then removeFirstSlash sourceUrl else sourceUrl)
    | none => pure sourceUrl
  let url ← normalize U sourceUrl
  let url ← match sourceRoot with
    | some root => joinPaths U root url
    | none => pure url
  match sourceMapUrl with
  | some m => do
    let dir ← trimFilename U m
    joinPaths U dir url
  | none => pure url

end

end RSM
