import Verif.Model.Json
/-!
# Contract of `serde_json`'s text level, with a concrete instance

`/repo/Cargo.toml`: `serde_json = "1.0"`. The contract asks only that the printed form of a value
built from integers and strings is read back as that value. The instance is a complete JSON reader
and a compact printer in the style of `serde_json::to_string`; it shows the contract satisfiable.
-/

namespace RSM

/-- Integers that `serde_json` keeps as integers. -/
def JInt (n : Int) : Prop := -2 ^ 63 ≤ n ∧ n < 2 ^ 64

/-- Values without floating point numbers and with integers in range. -/
inductive JVal.Plain : JVal → Prop
  | null : JVal.Plain .null
  | bool (b : Bool) : JVal.Plain (.bool b)
  | int (n : Int) (h : JInt n) : JVal.Plain (.int n)
  | str (s : String) : JVal.Plain (.str s)
  | arr (l : List JVal) (h : ∀ v ∈ l, JVal.Plain v) : JVal.Plain (.arr l)
  | obj (l : List (String × JVal)) (h : ∀ e ∈ l, JVal.Plain e.2) : JVal.Plain (.obj l)

/-- What the proofs assume of `serde_json`. -/
structure JsonLib.Laws (J : JsonLib) : Prop where
  parse_print : ∀ v, JVal.Plain v → J.parse (J.print v) = some v

/-! ## The instance: printing -/

namespace JText

def hexDigit (n : Nat) : Char := Char.ofNat (if n < 10 then 48 + n else 87 + n)

def esc (c : Char) : Text :=
  if c = '"' then ['\\', '"']
  else if c = '\\' then ['\\', '\\']
  else if c.toNat = 8 then ['\\', 'b']
  else if c.toNat = 9 then ['\\', 't']
  else if c.toNat = 10 then ['\\', 'n']
  else if c.toNat = 12 then ['\\', 'f']
  else if c.toNat = 13 then ['\\', 'r']
  else if c.toNat < 32 then ['\\', 'u', '0', '0', hexDigit (c.toNat / 16), hexDigit (c.toNat % 16)]
  else [c]

def printStr (s : Text) : Text := '"' :: (s.flatMap esc ++ ['"'])

def printInt (n : Int) : Text :=
  if n < 0 then '-' :: Nat.toDigits 10 n.natAbs else Nat.toDigits 10 n.natAbs

mutual
def print : JVal → Text
  | .null => ['n', 'u', 'l', 'l']
  | .bool true => ['t', 'r', 'u', 'e']
  | .bool false => ['f', 'a', 'l', 's', 'e']
  | .int n => printInt n
  | .float t => t.toList
  | .str s => printStr s.toList
  | .arr l => '[' :: (printElems l ++ [']'])
  | .obj l => '{' :: (printFields l ++ ['}'])
def printElems : List JVal → Text
  | [] => []
  | v :: vs => print v ++ printMoreElems vs
def printMoreElems : List JVal → Text
  | [] => []
  | v :: vs => ',' :: (print v ++ printMoreElems vs)
def printFields : List (String × JVal) → Text
  | [] => []
  | e :: es => printField e ++ printMoreFields es
def printMoreFields : List (String × JVal) → Text
  | [] => []
  | e :: es => ',' :: (printField e ++ printMoreFields es)
def printField : String × JVal → Text
  | (k, v) => printStr k.toList ++ ':' :: print v
end

/-! ## The instance: reading -/

def isWs (c : Char) : Bool := c == ' ' || c == '\n' || c == '\t' || c == '\r'

def skipWs : Text → Text
  | [] => []
  | c :: r => if isWs c then skipWs r else c :: r

def hexVal (c : Char) : Option Nat :=
  if c.isDigit then some (c.toNat - 48)
  else if 'a' ≤ c ∧ c ≤ 'f' then some (c.toNat - 87)
  else if 'A' ≤ c ∧ c ≤ 'F' then some (c.toNat - 55)
  else none

def hex4 (a b c d : Char) : Option Nat := do
  let a ← hexVal a
  let b ← hexVal b
  let c ← hexVal c
  let d ← hexVal d
  some (((a * 16 + b) * 16 + c) * 16 + d)

def simpleEsc (c : Char) : Option Char :=
  if c = '"' ∨ c = '\\' ∨ c = '/' then some c
  else if c = 'b' then some (Char.ofNat 8)
  else if c = 't' then some '\t'
  else if c = 'n' then some '\n'
  else if c = 'f' then some (Char.ofNat 12)
  else if c = 'r' then some '\r'
  else none

/-- The rest of a string literal, with fuel. -/
def pStr : Nat → Text → Option (Text × Text)
  | 0, _ => none
  | _ + 1, [] => none
  | f + 1, c :: r =>
    if c = '"' then some ([], r)
    else if c = '\\' then
      match r with
      | 'u' :: h1 :: h2 :: h3 :: h4 :: r => do
        let n ← hex4 h1 h2 h3 h4
        if 0xD800 ≤ n ∧ n < 0xDC00 then
          match r with
          | '\\' :: 'u' :: h1 :: h2 :: h3 :: h4 :: r => do
            let m ← hex4 h1 h2 h3 h4
            if 0xDC00 ≤ m ∧ m < 0xE000 then do
              let (s, r) ← pStr f r
              some (Char.ofNat (0x10000 + (n - 0xD800) * 0x400 + (m - 0xDC00)) :: s, r)
            else none
          | _ => none
        else if 0xDC00 ≤ n ∧ n < 0xE000 then none
        else do
          let (s, r) ← pStr f r
          some (Char.ofNat n :: s, r)
      | e :: r => do
        let c ← simpleEsc e
        let (s, r) ← pStr f r
        some (c :: s, r)
      | [] => none
    else if c.toNat < 32 then none
    else do
      let (s, r) ← pStr f r
      some (c :: s, r)

def spanDigits (t : Text) : Text × Text := (t.takeWhile Char.isDigit, t.dropWhile Char.isDigit)

def natVal (ds : Text) : Nat := Nat.ofDigitChars 10 ds 0

/-- Optional fraction and exponent; the text read and the rest. -/
def pFrac : Text → Option (Text × Text)
  | '.' :: r => let (ds, r) := spanDigits r; if ds.isEmpty then none else some ('.' :: ds, r)
  | r => some ([], r)

def pExp : Text → Option (Text × Text)
  | c :: r =>
    if c = 'e' ∨ c = 'E' then
      let (sg, r) := match r with
        | '+' :: r => (['+'], r)
        | '-' :: r => (['-'], r)
        | r => ([], r)
      let (ds, r) := spanDigits r
      if ds.isEmpty then none else some (c :: sg ++ ds, r)
    else some ([], c :: r)
  | [] => some ([], [])

/-- The digits of a number after its sign. -/
def pUnsigned (neg : Bool) (t : Text) : Option (JVal × Text) := do
  let (ds, r) := spanDigits t
  if ds.isEmpty ∨ (ds.head? = some '0' ∧ ds.length ≠ 1) then none
  else do
    let (fr, r) ← pFrac r
    let (ex, r) ← pExp r
    let n : Int := if neg then -(natVal ds : Int) else natVal ds
    if fr = [] ∧ ex = [] ∧ (-2 ^ 63 ≤ n ∧ n < 2 ^ 64) ∧ ¬ (neg ∧ n = 0) then some (.int n, r)
    else some (.float (String.ofList ((if neg then ['-'] else []) ++ ds ++ fr ++ ex)), r)

mutual
def pValue : Nat → Text → Option (JVal × Text)
  | 0, _ => none
  | f + 1, t =>
    match skipWs t with
    | [] => none
    | c :: r =>
      if c = '"' then do
        let (s, r) ← pStr (r.length + 1) r
        some (.str (String.ofList s), r)
      else if c = '[' then
        match skipWs r with
        | ']' :: r => some (.arr [], r)
        | _ => do
          let (l, r) ← pElems f r
          some (.arr l, r)
      else if c = '{' then
        match skipWs r with
        | '}' :: r => some (.obj [], r)
        | _ => do
          let (l, r) ← pFields f r
          some (.obj l, r)
      else if c = '-' then pUnsigned true r
      else if c.isDigit then pUnsigned false (c :: r)
      else
        match c :: r with
        | 'n' :: 'u' :: 'l' :: 'l' :: r => some (.null, r)
        | 't' :: 'r' :: 'u' :: 'e' :: r => some (.bool true, r)
        | 'f' :: 'a' :: 'l' :: 's' :: 'e' :: r => some (.bool false, r)
        | _ => none
def pElems : Nat → Text → Option (List JVal × Text)
  | 0, _ => none
  | f + 1, t => do
    let (v, r) ← pValue f t
    match skipWs r with
    | ',' :: r => do
      let (l, r) ← pElems f r
      some (v :: l, r)
    | ']' :: r => some ([v], r)
    | _ => none
def pFields : Nat → Text → Option (List (String × JVal) × Text)
  | 0, _ => none
  | f + 1, t => do
    let (e, r) ← pField f t
    match skipWs r with
    | ',' :: r => do
      let (l, r) ← pFields f r
      some (e :: l, r)
    | '}' :: r => some ([e], r)
    | _ => none
def pField : Nat → Text → Option ((String × JVal) × Text)
  | 0, _ => none
  | f + 1, t =>
    match skipWs t with
    | '"' :: r => do
      let (k, r) ← pStr (r.length + 1) r
      match skipWs r with
      | ':' :: r => do
        let (v, r) ← pValue f r
        some ((String.ofList k, v), r)
      | _ => none
    | _ => none
end

def parse (t : Text) : Option JVal :=
  match pValue (2 * t.length + 1) t with
  | some (v, r) => if (skipWs r).isEmpty then some v else none
  | none => none

end JText

def jsonText : JsonLib := ⟨JText.print, JText.parse⟩

/-! ## The instance satisfies the contract -/

namespace JText

theorem skipWs_cons {c : Char} {r : Text} (h : isWs c = false) : skipWs (c :: r) = c :: r := by
  simp [skipWs, h]

theorem esc_ctrl : ∀ n : Fin 32, hex4 '0' '0' (hexDigit (n.val / 16)) (hexDigit (n.val % 16)) = some n.val := by
  decide +kernel

theorem pStr_esc (c : Char) (f : Nat) (r : Text) :
    pStr (f + 1) (esc c ++ r) = (pStr f r).bind fun p => some (c :: p.1, p.2) := by
  unfold esc
  have hof : ∀ n, c.toNat = n → c = Char.ofNat n := fun n h => by rw [← h, Char.ofNat_toNat]
  split
  · next h => subst h; rfl
  split
  · next h => subst h; rfl
  split
  · next h => rw [hof _ h]; rfl
  split
  · next h => rw [hof _ h]; rfl
  split
  · next h => rw [hof _ h]; rfl
  split
  · next h => rw [hof _ h]; rfl
  split
  · next h => rw [hof _ h]; rfl
  split
  · next h =>
    have he := esc_ctrl ⟨c.toNat, h⟩
    simp only at he
    simp only [List.cons_append, List.nil_append, pStr, he]
    rw [if_neg (by decide), if_pos trivial]
    simp only [Option.bind_eq_bind, Option.bind_some]
    rw [if_neg (by omega), if_neg (by omega), Char.ofNat_toNat]
  · next h1 h2 _ _ _ _ _ h8 =>
    simp only [List.cons_append, List.nil_append, pStr, h1, h2, h8, if_false]
    rfl

theorem pStr_print : ∀ (s : Text) (f : Nat) (r : Text), s.length < f →
    pStr f (s.flatMap esc ++ '"' :: r) = some (s, r) := by
  intro s
  induction s with
  | nil =>
    intro f r h
    obtain ⟨f, rfl⟩ : ∃ g, f = g + 1 := ⟨f - 1, by simp at h; omega⟩
    simp [pStr]
  | cons c s ih =>
    intro f r h
    obtain ⟨f, rfl⟩ : ∃ g, f = g + 1 := ⟨f - 1, by simp at h; omega⟩
    rw [List.flatMap_cons, List.append_assoc, pStr_esc, ih f r (by simp at h; omega)]
    rfl

theorem length_esc (c : Char) : 1 ≤ (esc c).length := by
  unfold esc
  repeat' split
  all_goals simp

theorem length_flatMap_esc (s : Text) : s.length ≤ (s.flatMap esc).length := by
  induction s with
  | nil => simp
  | cons c s ih =>
    have := length_esc c
    simp only [List.flatMap_cons, List.length_append, List.length_cons]; omega

/-- What may follow a value. -/
def Ends (r : Text) : Prop := r = [] ∨ ∃ c t, r = c :: t ∧ (c = ',' ∨ c = ']' ∨ c = '}')

theorem Ends.not_digit {r : Text} (h : Ends r) : r.takeWhile Char.isDigit = [] ∧ r.dropWhile Char.isDigit = r := by
  rcases h with rfl | ⟨c, t, rfl, rfl | rfl | rfl⟩
  · simp
  all_goals
    constructor
    · rw [List.takeWhile_cons_of_neg (by decide)]
    · rw [List.dropWhile_cons_of_neg (by decide)]

theorem toDigits_head (n : Nat) : ∃ c t, Nat.toDigits 10 n = c :: t ∧ c.isDigit = true ∧ (c = '0' → t = [] ∧ n = 0) := by
  induction n using Nat.strongRecOn with
  | _ n ih =>
    by_cases h : n < 10
    · refine ⟨n.digitChar, [], Nat.toDigits_of_lt_base h, ?_, ?_⟩
      · have : ∀ m : Fin 10, (Nat.digitChar m.val).isDigit = true := by decide
        exact this ⟨n, h⟩
      · have : ∀ m : Fin 10, Nat.digitChar m.val = '0' → m.val = 0 := by decide
        intro h0
        exact ⟨rfl, this ⟨n, h⟩ h0⟩
    · obtain ⟨c, t, h1, h2, h3⟩ := ih (n / 10) (by omega)
      rw [Nat.toDigits_of_base_le (by decide) (by omega), h1]
      exact ⟨c, _, rfl, h2, fun h0 => by have := h3 h0; omega⟩

theorem spanDigits_toDigits (n : Nat) {r : Text} (h : Ends r) :
    spanDigits (Nat.toDigits 10 n ++ r) = (Nat.toDigits 10 n, r) := by
  have hd : ∀ c ∈ Nat.toDigits 10 n, c.isDigit = true :=
    fun c hc => Nat.isDigit_of_mem_toDigits (by decide) (by decide) hc
  unfold spanDigits
  rw [List.takeWhile_append_of_pos hd, List.dropWhile_append_of_pos hd, h.not_digit.1, h.not_digit.2]
  simp

theorem Ends.pFrac {r : Text} (h : Ends r) : pFrac r = some ([], r) := by
  rcases h with rfl | ⟨c, t, rfl, rfl | rfl | rfl⟩ <;> rfl

theorem Ends.pExp {r : Text} (h : Ends r) : pExp r = some ([], r) := by
  rcases h with rfl | ⟨c, t, rfl, rfl | rfl | rfl⟩ <;> rfl

theorem pUnsigned_print (neg : Bool) (n : Nat) (hn : neg = true → n ≠ 0)
    (hj : JInt (if neg then -(n : Int) else n)) {r : Text} (h : Ends r) :
    pUnsigned neg (Nat.toDigits 10 n ++ r) = some (.int (if neg then -(n : Int) else n), r) := by
  unfold pUnsigned
  simp only [spanDigits_toDigits n h]
  obtain ⟨c, t, h1, h2, h3⟩ := toDigits_head n
  rw [if_neg]
  · simp only [h.pFrac, h.pExp, Option.bind_eq_bind, Option.bind_some, natVal,
      Nat.ofDigitChars_ten_toDigits]
    rw [if_pos]
    refine ⟨trivial, trivial, hj, ?_⟩
    rintro ⟨h4, h5⟩
    have := hn h4
    rw [h4] at h5
    simp at h5
    omega
  · rw [h1]
    rintro (h4 | ⟨h4, h5⟩)
    · simp at h4
    · simp only [List.head?_cons, Option.some.injEq] at h4
      have := h3 h4
      rw [this.1] at h5
      exact h5 rfl

theorem print_head {v : JVal} (hv : v.Plain) : ∃ c t, print v = c :: t ∧ isWs c = false ∧ c ≠ ']' := by
  cases hv with
  | null => exact ⟨_, _, rfl, by decide, by decide⟩
  | bool b => cases b <;> exact ⟨_, _, rfl, by decide, by decide⟩
  | int n h =>
    obtain ⟨c, t, h1, h2, h3⟩ := toDigits_head n.natAbs
    simp only [print, printInt]
    split
    · exact ⟨_, _, rfl, by decide, by decide⟩
    · refine ⟨c, t, h1, ?_, ?_⟩
      · cases hw : isWs c with
        | false => rfl
        | true =>
          simp only [isWs, Bool.or_eq_true, beq_iff_eq] at hw
          rcases hw with ((rfl | rfl) | rfl) | rfl <;> exact absurd h2 (by decide)
      · rintro rfl; exact absurd h2 (by decide)
  | str s => exact ⟨_, _, rfl, by decide, by decide⟩
  | arr l h => exact ⟨_, _, rfl, by decide, by decide⟩
  | obj l h => exact ⟨_, _, rfl, by decide, by decide⟩

theorem printField_head (e : String × JVal) : ∃ t, printField e = '"' :: t := by
  obtain ⟨k, v⟩ := e
  exact ⟨_, by simp only [printField, printStr, List.cons_append]; rfl⟩

theorem ends_moreElems (vs : List JVal) (r : Text) : Ends (printMoreElems vs ++ ']' :: r) := by
  cases vs with
  | nil => exact .inr ⟨_, _, rfl, by simp⟩
  | cons v vs => exact .inr ⟨_, _, rfl, by simp⟩

theorem ends_moreFields (vs : List (String × JVal)) (r : Text) : Ends (printMoreFields vs ++ '}' :: r) := by
  cases vs with
  | nil => exact .inr ⟨_, _, rfl, by simp⟩
  | cons v vs => exact .inr ⟨_, _, rfl, by simp⟩

def ElemsText (v : JVal) (vs : List JVal) : Text := print v ++ printMoreElems vs
def FieldsText (v : String × JVal) (vs : List (String × JVal)) : Text := printField v ++ printMoreFields vs

theorem round (f : Nat) :
    (∀ v, v.Plain → ∀ r, Ends r → (print v).length ≤ f → pValue f (print v ++ r) = some (v, r)) ∧
    (∀ (v : JVal) vs, v.Plain → (∀ w ∈ vs, w.Plain) → ∀ r, (ElemsText v vs).length + 1 ≤ f →
      pElems f (ElemsText v vs ++ ']' :: r) = some (v :: vs, r)) ∧
    (∀ (v : String × JVal) vs, v.2.Plain → (∀ w ∈ vs, w.2.Plain) → ∀ r, (FieldsText v vs).length + 1 ≤ f →
      pFields f (FieldsText v vs ++ '}' :: r) = some (v :: vs, r)) ∧
    (∀ (e : String × JVal), e.2.Plain → ∀ r, Ends r → (printField e).length ≤ f →
      pField f (printField e ++ r) = some (e, r)) := by
  induction f with
  | zero =>
    refine ⟨?_, ?_, ?_, ?_⟩
    · intro v hv r hr hl
      obtain ⟨c, t, h, _⟩ := print_head hv
      simp [h] at hl
    · intro v vs _ _ r hl; omega
    · intro v vs _ _ r hl; omega
    · intro e _ r _ hl
      obtain ⟨t, h⟩ := printField_head e
      simp [h] at hl
  | succ f ih =>
    obtain ⟨ihV, ihE, ihF, ihP⟩ := ih
    refine ⟨?_, ?_, ?_, ?_⟩
    · intro v hv r hr hl
      cases hv with
      | null => rfl
      | bool b => cases b <;> rfl
      | int n h =>
        simp only [print, printInt]
        split
        · next hneg =>
          rw [List.cons_append, pValue, skipWs_cons (by decide)]
          simp only [if_true, show ('-' = '"') = False by decide, show ('-' = '[') = False by decide,
            show ('-' = '{') = False by decide, if_false]
          have he : -(n.natAbs : Int) = n := by omega
          have := pUnsigned_print true n.natAbs (by omega) (by simpa only [if_true, he] using h) hr
          simpa only [if_true, he] using this
        · next hneg =>
          have he : (n.natAbs : Int) = n := by omega
          have := pUnsigned_print false n.natAbs (by simp) (by simpa only [Bool.false_eq_true, if_false, he] using h) hr
          simp only [Bool.false_eq_true, if_false, he] at this
          obtain ⟨c, t, h1, h2, h3⟩ := toDigits_head n.natAbs
          rw [h1, List.cons_append] at this
          rw [h1, List.cons_append]
          have hc : ∀ d : Char, d.isDigit = false → c ≠ d := by
            rintro d hd rfl; simp [hd] at h2
          have hws : isWs c = false := by
            simp [isWs, hc]
          rw [pValue, skipWs_cons hws]
          simp only [hc '"' (by decide), hc '[' (by decide), hc '{' (by decide), hc '-' (by decide), h2, if_false, if_true]
          exact this
      | str s =>
        simp only [print, printStr, List.cons_append, List.append_assoc, List.nil_append]
        rw [pValue, skipWs_cons (by decide)]
        simp only [if_true]
        rw [pStr_print]
        · simp
        · have := length_flatMap_esc s.toList
          simp only [List.length_append, List.length_cons]; omega
      | arr l h =>
        cases l with
        | nil => rfl
        | cons v vs =>
          have hp := ihE v vs (h v (by simp)) (fun w hw => h w (by simp [hw])) r
            (by simp only [print, printElems, ElemsText, List.length_cons, List.length_append, List.length_nil] at hl ⊢; omega)
          obtain ⟨c, t, h1, h2, h3⟩ := print_head (h v (by simp))
          simp only [print, printElems, List.cons_append, List.append_assoc, List.nil_append, ElemsText] at hp ⊢
          rw [pValue, skipWs_cons (by decide)]
          simp only [show ('[' = '"') = False by decide, if_false, if_true, hp]
          rw [h1, List.cons_append, skipWs_cons h2]
          split
          · next heq => simp at heq; exact absurd heq.1 h3
          · rfl
      | obj l h =>
        cases l with
        | nil => rfl
        | cons v vs =>
          have hp := ihF v vs (h v (by simp)) (fun w hw => h w (by simp [hw])) r
            (by simp only [print, printFields, FieldsText, List.length_cons, List.length_append, List.length_nil] at hl ⊢; omega)
          obtain ⟨t, h1⟩ := printField_head v
          simp only [print, printFields, List.cons_append, List.append_assoc, List.nil_append, FieldsText] at hp ⊢
          rw [pValue, skipWs_cons (by decide)]
          simp only [show ('{' = '"') = False by decide, show ('{' = '[') = False by decide, if_false, if_true, hp]
          rw [h1, List.cons_append, skipWs_cons (by decide)]
          rfl
    · intro v vs hv hvs r hl
      simp only [ElemsText, List.append_assoc, List.length_append] at hl ⊢
      rw [pElems, ihV v hv _ (ends_moreElems vs r) (by omega)]
      simp only [Option.bind_eq_bind, Option.bind_some]
      cases vs with
      | nil =>
        simp only [printMoreElems, List.nil_append]
        rw [skipWs_cons (by decide)]
        rfl
      | cons w ws =>
        have hp := ihE w ws (hvs w (by simp)) (fun x hx => hvs x (by simp [hx])) r
          (by simp only [printMoreElems, ElemsText, List.length_cons, List.length_append] at hl ⊢; omega)
        simp only [printMoreElems, List.cons_append, List.append_assoc, ElemsText] at hp ⊢
        rw [skipWs_cons (by decide)]
        simp only [hp, Option.bind_some]
    · intro v vs hv hvs r hl
      simp only [FieldsText, List.append_assoc, List.length_append] at hl ⊢
      rw [pFields, ihP v hv _ (ends_moreFields vs r) (by omega)]
      simp only [Option.bind_eq_bind, Option.bind_some]
      cases vs with
      | nil =>
        simp only [printMoreFields, List.nil_append]
        rw [skipWs_cons (by decide)]
        rfl
      | cons w ws =>
        have hp := ihF w ws (hvs w (by simp)) (fun x hx => hvs x (by simp [hx])) r
          (by simp only [printMoreFields, FieldsText, List.length_cons, List.length_append] at hl ⊢; omega)
        simp only [printMoreFields, List.cons_append, List.append_assoc, FieldsText] at hp ⊢
        rw [skipWs_cons (by decide)]
        simp only [hp, Option.bind_some]
    · rintro ⟨k, v⟩ hv r hr hl
      simp only [printField, printStr, List.cons_append, List.append_assoc, List.nil_append, List.length_cons, List.length_append] at hl ⊢
      rw [pField, skipWs_cons (by decide)]
      simp only
      rw [pStr_print]
      · simp only [Option.bind_eq_bind, Option.bind_some]
        rw [skipWs_cons (by decide)]
        simp only
        rw [ihV v hv r hr (by omega)]
        simp
      · have := length_flatMap_esc k.toList
        simp only [List.length_append, List.length_cons]; omega

end JText

/-- The instance satisfies the contract. -/
theorem jsonText_laws : jsonText.Laws where
  parse_print := by
    intro v hv
    have h := (JText.round (2 * (JText.print v).length + 1)).1 v hv [] (.inl rfl) (by omega)
    rw [List.append_nil] at h
    simp only [jsonText, JText.parse, h]
    rfl

end RSM
