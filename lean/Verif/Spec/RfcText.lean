import Verif.Spec.Rfc
/-!
The syntax of RFC 9535 for queries without filters, rule by rule of its grammar, and what the texts stand for.  Texts are
in UTF-8.
-/
namespace JP.Rfc
open Spec

/-- `S = *B`: blanks, tabs, newlines and returns (2.1.1). -/
def Blanks (w : Bytes) : Prop := ∀ c ∈ w, c = 0x20 ∨ c = 9 ∨ c = 10 ∨ c = 13

/-! ## Names -/

/-- `escapable` and what it stands for (2.3.1.1). -/
inductive Escapable : UInt8 → UInt8 → Prop
  | backspace : Escapable (c! 'b') 8
  | formFeed : Escapable (c! 'f') 12
  | newline : Escapable (c! 'n') 10
  | return : Escapable (c! 'r') 13
  | tab : Escapable (c! 't') 9
  | slash : Escapable (c! '/') (c! '/')
  | backslash : Escapable (c! '\\') (c! '\\')

/-- `"u" 4HEXDIG` and its value. -/
inductive FourHex : Bytes → Nat → Prop
  | mk {a b c d i j k l} : Hex a i → Hex b j → Hex c k → Hex d l → FourHex [c! 'u', a, b, c, d] (4096 * i + 256 * j + 16 * k + l)

/-- `*double-quoted` or `*single-quoted`, the inside of a string literal in the quotes `q`, and the string it stands for (2.3.1). -/
inductive Inside (q : UInt8) : Bytes → Bytes → Prop
  | nil : Inside q [] []
  | unescaped {r t v} : r.isValidChar → 0x20 ≤ r → r ≠ q.toNat → r ≠ 0x5C → Inside q t v → Inside q (utf8 r ++ t) (utf8 r ++ v)
  | quote {t v} : Inside q t v → Inside q (c! '\\' :: q :: t) (q :: v)
  | escaped {e c t v} : Escapable e c → Inside q t v → Inside q (c! '\\' :: e :: t) (c :: v)
  | unicode {h u t v} : FourHex h u → ¬ Surrogate u → Inside q t v → Inside q (c! '\\' :: (h ++ t)) (utf8 u ++ v)
  | pair {h u h' w t v} : FourHex h u → FourHex h' w → SurrogatePair u w → Inside q t v →
      Inside q (c! '\\' :: (h ++ c! '\\' :: (h' ++ t))) (utf8 (ofPair u w) ++ v)

/-- `string-literal` and the string it stands for. -/
inductive StringLiteral : Bytes → Bytes → Prop
  | mk {q t v} : q = c! '"' ∨ q = c! '\'' → Inside q t v → StringLiteral (q :: (t ++ [q])) v

/-- `name-first` (2.5.1.1). -/
def NameFirst (r : Nat) : Prop :=
  (0x41 ≤ r ∧ r ≤ 0x5A) ∨ (0x61 ≤ r ∧ r ≤ 0x7A) ∨ r = 0x5F ∨ (0x80 ≤ r ∧ r.isValidChar)
/-- `name-char`. -/
def NameChar (r : Nat) : Prop := NameFirst r ∨ (0x30 ≤ r ∧ r ≤ 0x39)
/-- `member-name-shorthand = name-first *name-char`. -/
def ShortName (s : Bytes) : Prop := ∃ (r : Nat) (rs : List Nat), NameFirst r ∧ (∀ x ∈ rs, NameChar x) ∧ s = utf8 r ++ rs.flatMap utf8

/-! ## Selectors and segments -/

/-- `int = "0" / (["-"] DIGIT1 *DIGIT)` and its value (2.3.3.1). -/
inductive IntText : Bytes → Int → Prop
  | zero : IntText (b! "0") 0
  | pos {d ds} : Digit d → d ≠ c! '0' → All Digit ds → IntText (d :: ds) (decimal (d :: ds))
  | neg {d ds} : Digit d → d ≠ c! '0' → All Digit ds → IntText (c! '-' :: d :: ds) (-(decimal (d :: ds)))

/-- `[int S]` -/
inductive BoundS : Option Int → Bytes → Prop
  | none : BoundS none []
  | some {i t s} : IntText t i → Blanks s → BoundS (some i) (t ++ s)

/-- `selector`, without filters: names, `*`, indices, and slices `[start S] ":" S [end S] [":" [S step]]` (2.3). -/
inductive Written1 : Selector → Bytes → Prop
  | name {w v} : StringLiteral w v → Written1 (.name v) w
  | wild : Written1 .wild (b! "*")
  | index {i t} : IntText t i → Written1 (.index i) t
  | slice {a b ta s tb} : BoundS a ta → Blanks s → BoundS b tb → Written1 (.slice a b none) (ta ++ c! ':' :: (s ++ tb))
  | sliceColon {a b ta s tb} : BoundS a ta → Blanks s → BoundS b tb → Written1 (.slice a b none) (ta ++ c! ':' :: (s ++ (tb ++ b! ":")))
  | sliceStep {a b c ta s tb s' tc} : BoundS a ta → Blanks s → BoundS b tb → Blanks s' → IntText tc c →
      Written1 (.slice a b (some c)) (ta ++ c! ':' :: (s ++ (tb ++ c! ':' :: (s' ++ tc))))

/-- `selector *(S "," S selector)` -/
inductive WrittenSels : List Selector → Bytes → Prop
  | one {s w} : Written1 s w → WrittenSels [s] w
  | cons {s w g g' sels w'} : Written1 s w → Blanks g → Blanks g' → WrittenSels sels w' → WrittenSels (s :: sels) (w ++ (g ++ c! ',' :: (g' ++ w')))

/-- `bracketed-selection = "[" S selector *(S "," S selector) S "]"` (2.5.1.1) -/
inductive WrittenBracket : List Selector → Bytes → Prop
  | mk {sels g w g'} : Blanks g → WrittenSels sels w → Blanks g' → WrittenBracket sels (c! '[' :: (g ++ (w ++ (g' ++ b! "]"))))

/-- `segment` (2.5). -/
inductive WrittenSegment : Segment → Bytes → Prop
  | child {sels w} : WrittenBracket sels w → WrittenSegment (.child sels) w
  | dotWild : WrittenSegment (.child [.wild]) (b! ".*")
  | dotName {s} : ShortName s → WrittenSegment (.child [.name s]) (b! "." ++ s)
  | descend {sels w} : WrittenBracket sels w → WrittenSegment (.descend sels) (b! ".." ++ w)
  | dotsWild : WrittenSegment (.descend [.wild]) (b! "..*")
  | dotsName {s} : ShortName s → WrittenSegment (.descend [.name s]) (b! ".." ++ s)

/-- `jsonpath-query = "$" *(S segment)` (2.1.1), without filters. -/
inductive WrittenSegments : Query → Bytes → Prop
  | nil : WrittenSegments [] []
  | cons {seg g w q t} : Blanks g → WrittenSegment seg w → WrittenSegments q t → WrittenSegments (seg :: q) (g ++ (w ++ t))
/-- `jsonpath-query`. -/
def WrittenQuery (q : Query) (text : Bytes) : Prop := ∃ t, WrittenSegments q t ∧ text = c! '$' :: t

/-! ## Normalized Paths (2.7) -/

/-- `normal-single-quoted`: how one byte of a name is written. -/
def normalByte (c : UInt8) : Bytes :=
  if c = 8 then b! "\\b" else if c = 9 then b! "\\t" else if c = 10 then b! "\\n" else if c = 12 then b! "\\f"
  else if c = 13 then b! "\\r" else if c = c! '\'' then b! "\\'" else if c = c! '\\' then b! "\\\\"
  else if c < 0x20 then b! "\\u00" ++ [hexDigit (c.toNat / 16), hexDigit (c.toNat % 16)]
  else [c]

/-- `normal-index-segment`: one step of a place. -/
def normalKey : Key → Bytes
  | .index i => c! '[' :: (writeNat i ++ b! "]")
  | .name s => b! "['" ++ (s.flatMap normalByte ++ b! "']")

/-- The Normalized Path of a place. -/
def normalPath (p : Place) : Bytes := c! '$' :: p.flatMap normalKey

/-- The query for a place: one segment with one name or index for each step. -/
def ofPlace (p : Place) : Query := p.map fun
  | .index i => .child [.index i]
  | .name s => .child [.name s]

end JP.Rfc
