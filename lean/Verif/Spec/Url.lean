import Verif.Model.Url
/-! # Plain URLs, locations and references

Locations and relative references as lists of segments, and reference resolution as in RFC 3986 5.2 and
the WHATWG URL standard, for the plain characters that no step of either rewrites. Independent of the
code in `Verif/Model/Util.lean`.
-/

namespace RSM
namespace Spec

/-- The characters of URLs that stand for themselves in paths, queries and fragments: unreserved ASCII, the
other ASCII punctuation that neither separates anything nor is percent-encoded, and the percent sign itself. -/
def plainChar (c : Char) : Bool :=
  ('A' ≤ c ∧ c ≤ 'Z') || ('a' ≤ c ∧ c ≤ 'z') || ('0' ≤ c ∧ c ≤ '9') || c = '-' || c = '_' || c = '.' || c = '~' ||
  c ∈ ['!', '$', '&', '(', ')', '*', '+', ',', ';', '=', '@', '[', ']', '%']

def hexChar (c : Char) : Bool := ('A' ≤ c ∧ c ≤ 'F') || ('a' ≤ c ∧ c ≤ 'f') || ('0' ≤ c ∧ c ≤ '9')

/-- Each percent sign begins an encoded byte, and none of these is a dot: `%2e%2e` would be a dot segment. -/
def encodedWell : Text → Bool
  | '%' :: a :: b :: s => hexChar a && hexChar b && !(a = '2' && (b = 'e' || b = 'E')) && encodedWell s
  | c :: s => c ≠ '%' && encodedWell s
  | [] => true

def Plain (t : Text) : Prop := (∀ c ∈ t, plainChar c = true) ∧ encodedWell t = true

instance (t : Text) : Decidable (Plain t) := by unfold Plain; infer_instance

def dot : Text := ['.']
def dotdot : Text := ['.', '.']

/-- A segment naming something: plain, not empty, not a dot segment. -/
def Name (s : Text) : Prop := Plain s ∧ s ≠ [] ∧ s ≠ dot ∧ s ≠ dotdot

instance (t : Text) : Decidable (Name t) := by unfold Name; infer_instance

/-- Directories, each followed by a slash, and the last segment, empty for a directory. -/
def pathText (dirs : List Text) (file : Text) : Text := dirs.flatMap (· ++ ['/']) ++ file

/-- A location on a host: the directories from the root and the file, empty for a directory. -/
structure Loc where
  dirs : List Text
  file : Text
deriving DecidableEq, Repr

namespace Loc
def Valid (l : Loc) : Prop := (∀ s ∈ l.dirs, Name s) ∧ (l.file = [] ∨ Name l.file)
/-- The path of the location. -/
def text (l : Loc) : Text := '/' :: pathText l.dirs l.file
instance (l : Loc) : Decidable l.Valid := by unfold Valid; infer_instance
end Loc

/-- A relative reference: segments, among them possibly dot segments, and the last segment. -/
structure Ref where
  dirs : List Text
  file : Text
deriving DecidableEq, Repr

namespace Ref
def Valid (r : Ref) : Prop := (∀ s ∈ r.dirs, Plain s ∧ s ≠ []) ∧ Plain r.file
def text (r : Ref) : Text := pathText r.dirs r.file
instance (r : Ref) : Decidable r.Valid := by unfold Valid; infer_instance

/-- The reference as a directory: with a final slash. -/
def asDir (r : Ref) : Ref := ⟨r.dirs ++ (if r.file = [] then [] else [r.file]), []⟩

/-- A reference below a directory. -/
def below (d r : Ref) : Ref := ⟨d.asDir.dirs ++ r.dirs, r.file⟩
end Ref

/-- Follow one segment from a directory. Leaving the root stays at the root. -/
def enter (at_ : List Text) (s : Text) : List Text :=
  if s = dot then at_ else if s = dotdot then at_.dropLast else at_ ++ [s]

/-- What a relative reference means in a directory. -/
def resolve (from_ : List Text) (r : Ref) : Loc :=
  let d := r.dirs.foldl enter from_
  if r.file = dot then ⟨d, []⟩ else if r.file = dotdot then ⟨d.dropLast, []⟩ else ⟨d, r.file⟩

/-- A relative reference with the dot segments removed as far as possible: so many steps up, then names. -/
structure Climb where
  ups : Nat
  names : List Text
deriving DecidableEq, Repr

def Climb.enter (c : Climb) (s : Text) : Climb :=
  if s = dot then c
  else if s = dotdot then if c.names = [] then ⟨c.ups + 1, []⟩ else ⟨c.ups, c.names.dropLast⟩
  else ⟨c.ups, c.names ++ [s]⟩

/-- Where a relative reference leads: so many steps up, then names. -/
def Ref.climb (r : Ref) : Climb :=
  let c := r.dirs.foldl Climb.enter ⟨0, []⟩
  if r.file = dotdot then c.enter dotdot else c

/-- The file a reference names, empty if it is a directory. -/
def Ref.lastName (r : Ref) : Text := if r.file = dot ∨ r.file = dotdot then [] else r.file

/-- The normal form of a relative reference: all steps up first, then names only. -/
def Ref.norm (r : Ref) : Ref := ⟨List.replicate r.climb.ups dotdot ++ r.climb.names, r.lastName⟩

/-- A host, with a port if one is given. -/
structure Host where
  name : Text
  port : Option Nat := none
deriving DecidableEq, Repr

/-- Lower-case letters, digits, hyphens and dots. -/
def hostChar (c : Char) : Bool := 'a' ≤ c ∧ c ≤ 'z' || '0' ≤ c ∧ c ≤ '9' || c = '-' || c = '.'

namespace Host
/-- Labels separated by single dots, each beginning with a letter (so that the name is no number) and not ending in a
hyphen, without double hyphens (so that it is not an encoded one). The port is neither of the default ports, which are
left out of URLs. -/
def Valid (h : Host) : Prop :=
  (∀ c ∈ h.name, hostChar c = true) ∧ (h.name.head?.any fun c => 'a' ≤ c ∧ c ≤ 'z') = true ∧
  (∀ c ∈ h.name.getLast?, c ≠ '.' ∧ c ≠ '-') ∧
  (∀ p ∈ h.name.zip h.name.tail, (p.1 = '.' → 'a' ≤ p.2 ∧ p.2 ≤ 'z') ∧ (p.1 = '-' → p.2 ≠ '.' ∧ p.2 ≠ '-')) ∧
  ∀ n ∈ h.port, 0 < n ∧ n < 65536 ∧ n ≠ 80 ∧ n ≠ 443
def portText (h : Host) : Text := match h.port with | some n => ':' :: Nat.toDigits 10 n | none => []
def text (h : Host) : Text := h.name ++ h.portText
/-- The name, if there is one. -/
def shown (h : Host) : Option Text := if h.name = [] then none else some h.name
/-- No host. -/
def empty : Host := ⟨[], none⟩
instance (h : Host) : Decidable h.Valid := by unfold Valid; infer_instance
end Host

/-- `http` and `https`. -/
def Web (scheme : Text) : Prop := scheme = ['h', 't', 't', 'p'] ∨ scheme = ['h', 't', 't', 'p', 's']

/-- `file`. -/
def Local (scheme : Text) : Prop := scheme = ['f', 'i', 'l', 'e']

/-- The schemes with rules of their own in the URL standard. -/
def special : List Text :=
  [['h', 't', 't', 'p'], ['h', 't', 't', 'p', 's'], ['w', 's'], ['w', 's', 's'], ['f', 't', 'p'], ['f', 'i', 'l', 'e']]

def schemeChar (c : Char) : Bool := 'a' ≤ c ∧ c ≤ 'z' || '0' ≤ c ∧ c ≤ '9' || c = '+' || c = '-' || c = '.'

/-- A scheme such as `webpack`. -/
def Custom (scheme : Text) : Prop :=
  (∀ c ∈ scheme, schemeChar c = true) ∧ (scheme.head?.any fun c => 'a' ≤ c ∧ c ≤ 'z') = true ∧ scheme ∉ special

instance (s : Text) : Decidable (Web s) := by unfold Web; infer_instance
instance (s : Text) : Decidable (Local s) := by unfold Local; infer_instance
instance (s : Text) : Decidable (Custom s) := by unfold Custom; infer_instance

/-- Scheme and host. -/
structure Origin where
  scheme : Text
  host : Host
deriving DecidableEq, Repr

namespace Origin
/-- `http` or `https` and a host, `file` and none, or another scheme and a host or none. -/
def Valid (o : Origin) : Prop :=
  (Web o.scheme ∨ Local o.scheme ∨ Custom o.scheme) ∧
    (o.host.Valid ∧ ¬ Local o.scheme ∨ ¬ Web o.scheme ∧ o.host = Host.empty)
def text (o : Origin) : Text := o.scheme ++ [':', '/', '/'] ++ o.host.text
instance (o : Origin) : Decidable o.Valid := by unfold Valid; infer_instance
end Origin

/-- The optional query and fragment. -/
structure Tail where
  query : Option Text := none
  fragment : Option Text := none
deriving DecidableEq, Repr

namespace Tail
def Valid (t : Tail) : Prop := (∀ q ∈ t.query, Plain q) ∧ ∀ f ∈ t.fragment, Plain f
def queryText (t : Tail) : Text := match t.query with | some q => '?' :: q | none => []
def fragmentText (t : Tail) : Text := match t.fragment with | some f => '#' :: f | none => []
def text (t : Tail) : Text := t.queryText ++ t.fragmentText
end Tail

/-- An absolute URL. -/
structure Addr where
  origin : Origin
  loc : Loc
  tail : Tail := {}
deriving DecidableEq, Repr

namespace Addr
def Valid (a : Addr) : Prop := a.origin.Valid ∧ a.loc.Valid ∧ a.tail.Valid
def text (a : Addr) : Text := a.origin.text ++ a.loc.text ++ a.tail.text
end Addr

/-! ## Characters that URLs contain only in encoded form -/

/-- The characters that are written as percent-encoded UTF-8 in paths, queries and fragments alike. -/
def rawChar (c : Char) : Bool := c ∈ [' ', '"', '<', '>'] || 128 ≤ c.toNat

def hexDigit (n : Nat) : Char :=
  ['0', '1', '2', '3', '4', '5', '6', '7', '8', '9', 'A', 'B', 'C', 'D', 'E', 'F'].getD n '0'

def encodeByte (b : UInt8) : Text := ['%', hexDigit (b.toNat / 16), hexDigit (b.toNat % 16)]

def encodeChar (c : Char) : Text := if rawChar c then (String.utf8EncodeChar c).flatMap encodeByte else [c]

/-- The text with these characters encoded. -/
def encode (t : Text) : Text := t.flatMap encodeChar

/-- A reference, path or URL with such characters after the host. No space begins or ends it, and no space follows the
slash of a path: these would be cut off. -/
def Raw (t : Text) : Prop :=
  t.getLast? ≠ some ' ' ∧ ∃ pre rest, t = pre ++ rest ∧
    (pre = [] ∧ rest.head? ≠ some '/' ∧ rest.head? ≠ some ' ' ∨
      pre = ['/'] ∧ rest.head? ≠ some '/' ∧ rest.head? ≠ some ' ' ∨
      (∃ o : Origin, o.Valid ∧ pre = o.text ++ ['/']) ∨ ∃ h : Host, h.Valid ∧ pre = ['/', '/'] ++ h.text ++ ['/']) ∧
    ∀ c ∈ rest, plainChar c = true ∨ rawChar c = true ∨ c ∈ ['/', '?', '#']

end Spec
end RSM
