import Verif.Spec.Locate
/-!
Queries without filters as in RFC 9535 (JSONPath), and the nodelists they give.  The RFC leaves the order of the members of
an object open, and with it that of some results, so this is a relation.  Section numbers are those of the RFC.
-/
namespace JP.Rfc
open Spec

/-- Selectors (2.3) other than filters. -/
inductive Selector where
  | name (s : Bytes)
  | wild
  | index (i : Int)
  | slice (start stop step : Option Int)
  deriving DecidableEq

/-- Segments (2.5): `[…]` and `..[…]`. -/
inductive Segment where
  | child (sels : List Selector)
  | descend (sels : List Selector)
  deriving DecidableEq

/-- Queries (2.1), without the `$`. -/
abbrev Query := List Segment

/-- `Normalize` of 2.3.4.2.2. -/
def normalize (i len : Int) : Int := if 0 ≤ i then i else len + i

/-- The defaults of 2.3.4.2.1. -/
def startOf (start : Option Int) (step len : Int) : Int := start.getD (if 0 ≤ step then 0 else len - 1)
/-- The defaults of 2.3.4.2.1. -/
def endOf (stop : Option Int) (step len : Int) : Int := stop.getD (if 0 ≤ step then len else -len - 1)

/-- `Bounds` of 2.3.4.2.2, the lower bound. -/
def lower (start stop : Option Int) (step len : Int) : Int :=
  if 0 ≤ step then min (max (normalize (startOf start step len) len) 0) len
  else min (max (normalize (endOf stop step len) len) (-1)) (len - 1)
/-- `Bounds` of 2.3.4.2.2, the upper bound. -/
def upper (start stop : Option Int) (step len : Int) : Int :=
  if 0 ≤ step then min (max (normalize (endOf stop step len) len) 0) len
  else min (max (normalize (startOf start step len) len) (-1)) (len - 1)

/-- `WHILE i < upper: SELECT a(i); i = i + step` of 2.3.4.2.2, from some `i`. -/
inductive Upward (xs : List V) (upper step : Int) : Int → List V → Prop
  | stop {i} : upper ≤ i → Upward xs upper step i []
  | select {i x l} : i < upper → 0 ≤ i → xs[i.toNat]? = some x → Upward xs upper step (i + step) l → Upward xs upper step i (x :: l)

/-- `WHILE lower < i: SELECT a(i); i = i + step` of 2.3.4.2.2, from some `i`. -/
inductive Downward (xs : List V) (lower step : Int) : Int → List V → Prop
  | stop {i} : i ≤ lower → Downward xs lower step i []
  | select {i x l} : lower < i → 0 ≤ i → xs[i.toNat]? = some x → Downward xs lower step (i + step) l → Downward xs lower step i (x :: l)

/-- What a selector selects from a value (2.3.1 to 2.3.4). -/
inductive Selects : Selector → V → List V → Prop
  | member {s kvs v} : (s, v) ∈ kvs → Selects (.name s) (.obj kvs) [v]
  | noMember {s kvs} : (∀ v, (s, v) ∉ kvs) → Selects (.name s) (.obj kvs) []
  | noObject {s v} : (∀ kvs, v ≠ .obj kvs) → Selects (.name s) v []
  | wild {v l} : Children v l → Selects .wild v l
  | element {i : Int} {xs : List V} {x} : 0 ≤ normalize i xs.length → xs[(normalize i xs.length).toNat]? = some x →
      Selects (.index i) (.arr xs) [x]
  | noElement {i : Int} {xs : List V} : normalize i xs.length < 0 ∨ xs.length ≤ normalize i xs.length → Selects (.index i) (.arr xs) []
  | noArray {i v} : (∀ xs, v ≠ .arr xs) → Selects (.index i) v []
  | up {start stop step : Option Int} {xs : List V} {l} : 0 < step.getD 1 →
      Upward xs (upper start stop (step.getD 1) xs.length) (step.getD 1) (lower start stop (step.getD 1) xs.length) l →
      Selects (.slice start stop step) (.arr xs) l
  | down {start stop step : Option Int} {xs : List V} {l} : step.getD 1 < 0 →
      Downward xs (lower start stop (step.getD 1) xs.length) (step.getD 1) (upper start stop (step.getD 1) xs.length) l →
      Selects (.slice start stop step) (.arr xs) l
  | zero {start stop xs} : Selects (.slice start stop (some 0)) (.arr xs) []
  | noSlice {start stop step v} : (∀ xs, v ≠ .arr xs) → Selects (.slice start stop step) v []

/-- What a list of selectors in brackets selects from a value: what each selects, in order (2.5.1). -/
def Bracketed (sels : List Selector) (v : V) (l : List V) : Prop :=
  ∃ ls, All2 (fun s l => Selects s v l) sels ls ∧ l = ls.flatten

/-- One place may be visited before another (2.5.2.2): it is not at or below the other, and if both are elements of one array then it is the
earlier. -/
def MayPrecede (p q : Place) : Prop :=
  ¬ q <+: p ∧ ∀ r i j, p = r ++ [.index i] → q = r ++ [.index j] → i < j

/-- An order in which a value and all its descendants may be visited (2.5.2.2). -/
def Visits (v : V) (ds : List (Place × V)) : Prop :=
  (∀ p w, (p, w) ∈ ds ↔ At v p w) ∧ ds.Pairwise fun a b => MayPrecede a.1 b.1

/-- What a segment selects from a value (2.5.1.2, 2.5.2.2). -/
inductive Applies : Segment → V → List V → Prop
  | child {sels v l} : Bracketed sels v l → Applies (.child sels) v l
  | descend {sels v ds ls} : Visits v ds → All2 (fun d l => Bracketed sels d.2 l) ds ls → Applies (.descend sels) v ls.flatten

/-- The nodelists (here the lists of values) that a query may give (2.1.2). -/
inductive Gives (root : V) : Query → List V → Prop
  | root : Gives root [] [root]
  | segment {q seg vs ls} : Gives root q vs → All2 (Applies seg) vs ls → Gives root (q ++ [seg]) ls.flatten

/-! ## Texts -/

/-- Integers within the range of 2.1. -/
def InRange (i : Int) : Prop := -(2 ^ 53) < i ∧ i < 2 ^ 53

/-- The integers of a selector are in range. -/
def Selector.Valid : Selector → Prop
  | .index i => InRange i
  | .slice a b c => (∀ i ∈ a, InRange i) ∧ (∀ i ∈ b, InRange i) ∧ ∀ i ∈ c, InRange i
  | _ => True

/-- The selectors of a segment. -/
def Segment.sels : Segment → List Selector
  | .child sels | .descend sels => sels

/-- A query of the RFC: at least one selector in each segment, and all integers in range. -/
def Query.Valid (q : Query) : Prop := ∀ seg ∈ q, seg.sels ≠ [] ∧ ∀ s ∈ seg.sels, s.Valid

/-- A bound of a slice, or nothing. -/
def boundText : Option Int → Bytes
  | none => []
  | some i => writeInt i

/-- A selector; names are written in double quotes. -/
def selectorText : Selector → Bytes
  | .name s => writeStr (c! '"') s
  | .wild => b! "*"
  | .index i => writeInt i
  | .slice a b none => boundText a ++ c! ':' :: boundText b
  | .slice a b (some c) => boundText a ++ c! ':' :: (boundText b ++ c! ':' :: writeInt c)

/-- The ways to write a segment: in brackets, or after one or two dots if it is one name or `*`. -/
inductive SegmentText : Segment → Bytes → Prop
  | child (sels) : SegmentText (.child sels) (bracket (commas (sels.map selectorText)))
  | descend (sels) : SegmentText (.descend sels) (b! ".." ++ bracket (commas (sels.map selectorText)))
  | dotName (s) : Ident s → SegmentText (.child [.name s]) (b! "." ++ s)
  | dotsName (s) : Ident s → SegmentText (.descend [.name s]) (b! ".." ++ s)
  | dotWild : SegmentText (.child [.wild]) (b! ".*")
  | dotsWild : SegmentText (.descend [.wild]) (b! "..*")

/-- A text of a query. -/
def QueryText (q : Query) (text : Bytes) : Prop := ∃ ts, All2 SegmentText q ts ∧ text = c! '$' :: ts.flatten

/-! ## Where the code differs -/

/-- `*` does not stand beside other selectors. -/
def Segment.Lone (seg : Segment) : Prop := .wild ∈ seg.sels → seg.sels = [.wild]

/-- No object of the document has a member that is named by the digits of an index of the query. -/
def NoDigits (root : V) (q : Query) : Prop :=
  ∀ seg ∈ q, ∀ i, .index i ∈ seg.sels → ∀ p kvs, At root p (.obj kvs) → ∀ x, (writeInt i, x) ∉ kvs

/-- The segment has a slice. -/
def Segment.HasSlice (seg : Segment) : Prop := ∃ a b c, Selector.slice a b c ∈ seg.sels

/-- The value is an array, and one step beyond its end is still an integer. -/
def IsArray (v : V) : Prop := ∃ xs, v = .arr xs ∧ (xs.length : Int) + 2 ^ 53 ≤ 2 ^ 63

/-- The slices of a segment are applied to arrays only. -/
def OnArrays : Segment → V → Prop
  | .child _, v => IsArray v
  | .descend _, v => ∀ p w, At v p w → isStructure w = true → IsArray w

/-- The slices of a query are applied to arrays only. -/
def SlicesOnArrays (root : V) (q : Query) : Prop :=
  ∀ q1 seg q2, q = q1 ++ seg :: q2 → seg.HasSlice → ∀ vs, Gives root q1 vs → ∀ v ∈ vs, OnArrays seg v

end JP.Rfc
