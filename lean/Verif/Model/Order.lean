import Verif.Model.Syntax
/-!
mach/program.go: packing of program orders.
-/
namespace JP

/-- mach/program.go:16 `order`. -/
abbrev Order := UInt32

/-- mach/program.go:24 `indexTop`: 2^22. -/
def indexTop : Nat := 4194304

/-- mach/program.go:29-31 `mkOrder`. -/
def mkOrder (op : Op) (index : UInt32) : Order :=
  (UInt32.ofNat op.toNat &&& (0xFF : UInt32)) ||| (index <<< 9)

/-- mach/program.go:34-36 `mkSmall`; `val` is a Go `int` (64 bits). -/
def mkSmall (op : Op) (val : Int64) : Order :=
  (UInt32.ofNat op.toNat &&& (0xFF : UInt32)) ||| ((val &&& 0x7FFFFF) <<< 9).toUInt64.toUInt32 ||| 0x100

/-- mach/program.go:39-41 `op`; the number of the operator. -/
def Order.opNum (o : Order) : Nat := (o &&& 0xFF).toNat

/-- mach/program.go:44-46 `isSmallInt`. -/
def Order.isSmallInt (o : Order) : Bool := o &&& 0x100 != 0

/-- mach/program.go:50-55 `index`; `none` is the panic for a small integer. -/
def Order.index (o : Order) : Option UInt32 := if o &&& 0x100 != 0 then none else some (o >>> 9)

/-- mach/program.go:58-62 `smallInt`: arithmetic right shift. -/
def Order.smallInt (o : Order) : Int64 := (o.toInt32 >>> 9).toInt64

/-- mach/program.go:65-67 `isSmallInt`. -/
def isSmallInt (i : Int64) : Bool := -4194304 ≤ i && i ≤ 4194303

/-- mach/program.go:70-75 `pc`; `none` is the panic. -/
def Order.pc (o : Order) : Option Int64 := if o &&& 0x100 == 0 then none else some o.smallInt

/-- The constants that a program's table can hold: `paths.IntVal`, `StringVal`, `NameVal`, `*Slice`
(paths/val.go), `floatVal`, `regexpVal` (mach/program.go:78-105). -/
inductive PVal where
  | int (n : Int64)
  | str (s : Bytes)
  | name (s : Bytes)
  | slice (s : Slice)
  | float (f : F64)
  | re (pattern : Bytes)
  deriving Repr, Inhabited

/-- mach/program.go:109-112 `Program`. -/
structure Program where
  vals : List PVal
  orders : List Order
  deriving Repr, Inhabited

end JP
