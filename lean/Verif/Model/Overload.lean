import Verif.Model.EniBase
import Verif.Model.Vector
/-!
# Which constructor of `json::Value` and which subscript is called (include/eni/json/Value.h 28-37, 62-63, Array.h 29)

Implicit conversion sequences and their ranking as in [over.ics.rank] of the C++ standard, for the types of arguments listed in `Arg`. The rest of the
model starts where a constructor or subscript has been chosen.
-/
namespace Eni.Cxx

/-- Integer types of C++ on x86-64 (LP64). -/
inductive ITy where
  | bool | char | schar | uchar | short | ushort | int | uint | long | ulong | llong | ullong
  deriving DecidableEq, Repr

/-- Smallest and largest value. Simplified: plain `char` is signed. -/
def ITy.range : ITy → Int × Int
  | .bool => (0, 1)
  | .char => (-128, 127)
  | .schar => (-128, 127)
  | .uchar => (0, 255)
  | .short => (-32768, 32767)
  | .ushort => (0, 65535)
  | .int => (-2147483648, 2147483647)
  | .uint => (0, 4294967295)
  | .long => (-9223372036854775808, 9223372036854775807)
  | .ulong => (0, 18446744073709551615)
  | .llong => (-9223372036854775808, 9223372036854775807)
  | .ullong => (0, 18446744073709551615)

/-- Integral promotion to `int` ([conv.prom]): types whose values all fit and that are narrower than `int`. -/
def ITy.promotes : ITy → Bool
  | .bool => true
  | .char => true
  | .schar => true
  | .uchar => true
  | .short => true
  | .ushort => true
  | _ => false

/-- An argument: its type and its value. -/
inductive Arg where
  | int (t : ITy) (z : Int)
  /-- `float` or `double`; the integer part, if it has one. -/
  | float (z : Option Int)
  /-- An unscoped enumeration without fixed underlying type whose enumerators are between `lo` and `hi`. -/
  | enum (lo hi z : Int)
  /-- An enumeration declared with `enum class`. -/
  | enumClass (z : Int)
  /-- `nullptr` -/
  | null
  /-- A pointer to `char` or `const char` or the array of `char` of a variable: `none` is the null pointer, else the bytes up to the end of the array. -/
  | cptr (m : Option Bytes)
  /-- A string literal with these characters; a NUL follows them. -/
  | lit (s : Bytes)
  /-- Any other pointer to an object or function, or an array of something else than `char`; `true` if null. -/
  | ptr (isNull : Bool)
  | str (s : Bytes)
  | s256 (z : Int)
  /-- `eni::u64`, `u128`, `u160`, `u256` (eni_types.h 18-28). -/
  | unum (bits : Nat) (n : Nat)
  | obj (m : Table (SEntry Value))
  | arr (vs : List Value)
  | val (v : Value) (rvalue : Bool)

/-- Parameter types. -/
inductive Par where
  | bool | cstr | str | int | s256 | obj | arr | val | valMove
  deriving DecidableEq, Repr

/-- Implicit conversion sequences ([over.best.ics], [over.ics.rank]). `exact loose`: a `const&` bound to an rvalue is `loose`. `conversion toBool`: of a
pointer or `nullptr` to `bool`. -/
inductive Ics where
  | exact (loose : Bool)
  | promotion
  | conversion (toBool : Bool)
  | user
  deriving DecidableEq, Repr

/-- Standard conversions are better than user-defined ones, among them ranks count; within a rank, binding an rvalue to `&&` and not converting a pointer
to `bool` is better. -/
def Ics.better : Ics → Ics → Bool
  | .exact a, .exact b => !a && b
  | .exact _, _ => true
  | .promotion, .conversion _ => true
  | .promotion, .user => true
  | .conversion a, .conversion b => !a && b
  | .conversion _, .user => true
  | _, _ => false

/-- Does an unscoped enumeration promote to `int`? -/
def enumInt (lo hi : Int) : Bool := decide (-2147483648 ≤ lo) && decide (hi ≤ 2147483647)

/-- The implicit conversion sequence from an argument to a parameter, if there is one. `std::string` converts implicitly from `const char*`, Boost's
numbers from integers and from numbers that do not lose values (explicit conversions do not count), `Value` from `Object` and `Array`
(Value.h 33-34). -/
def conv : Arg → Par → Option Ics
  | .int t _, .bool => some (if t = .bool then .exact false else .conversion false)
  | .int t _, .int => some (if t = .int then .exact false else if t.promotes then .promotion else .conversion false)
  | .int _ _, .s256 => some .user
  | .float _, .bool => some (.conversion false)
  | .float _, .int => some (.conversion false)
  | .enum _ _ _, .bool => some (.conversion false)
  | .enum lo hi _, .int => some (if enumInt lo hi then .promotion else .conversion false)
  | .enum _ _ _, .s256 => some .user
  | .null, .bool => some (.conversion true)
  | .null, .cstr => some (.conversion false)
  | .null, .str => some .user
  | .cptr _, .bool => some (.conversion true)
  | .cptr _, .cstr => some (.exact false)
  | .cptr _, .str => some .user
  | .lit _, .bool => some (.conversion true)
  | .lit _, .cstr => some (.exact false)
  | .lit _, .str => some .user
  | .ptr _, .bool => some (.conversion true)
  | .str _, .str => some (.exact false)
  | .s256 _, .s256 => some (.exact false)
  | .unum w _, .s256 => if w ≤ 256 then some .user else none
  | .obj _, .obj => some (.exact false)
  | .obj _, .val => some .user
  | .obj _, .valMove => some .user
  | .arr _, .arr => some (.exact false)
  | .arr _, .val => some .user
  | .arr _, .valMove => some .user
  | .val _ r, .val => some (.exact r)
  | .val _ r, .valMove => if r then some (.exact false) else none
  | _, _ => none

/-- Is `p` a viable function and better than every other viable one? -/
def best (ps : List Par) (a : Arg) (p : Par) : Bool :=
  match conv a p with
  | none => false
  | some c => ps.all fun q =>
      if q = p then true
      else match conv a q with
        | none => true
        | some d => c.better d

/-- Overload resolution among functions with one parameter: `none` is an error at compile time (no viable function, or ambiguous). -/
def resolve (ps : List Par) (a : Arg) : Option Par := ps.find? (best ps a)

/-- Conversion of an integer to `int`: the low 32 bits. -/
def wrapInt (z : Int) : Int := if z % 4294967296 < 2147483648 then z % 4294967296 else z % 4294967296 - 4294967296

/-- The argument converted to `bool`. -/
def asBool : Arg → Bool
  | .int _ z => decide (z ≠ 0)
  | .enum _ _ z => decide (z ≠ 0)
  | .cptr m => m.isSome
  | .lit _ => true
  | .ptr n => !n
  | _ => false

/-- The argument converted to `int`: a floating-point number must have an integer part that `int` represents. -/
def asInt : Arg → Res Int
  | .int _ z => .ok (wrapInt z)
  | .enum _ _ z => .ok (wrapInt z)
  | .float (some z) => if -2147483648 ≤ z ∧ z ≤ 2147483647 then .ok z else .ub .overflow
  | .float none => .ub .overflow
  | _ => .ub .badUnion

/-- `std::string(const char*)`: undefined for the null pointer and if there is no NUL. -/
def ofCstr : Option Bytes → Res Bytes
  | none => .ub .nullDeref
  | some m => if 0 ∈ m then .ok (cstr m) else .ub .outOfBounds

/-- The argument converted to `const char*` and read as a string, or to `std::string`. -/
def asStr : Arg → Res Bytes
  | .null => ofCstr none
  | .cptr m => ofCstr m
  | .lit s => ofCstr (some (s ++ [0]))
  | .str s => .ok s
  | _ => .ub .badUnion

/-- The argument converted to `s256`. -/
def asNum : Arg → Int
  | .int _ z => z
  | .enum _ _ z => z
  | .s256 z => z
  | .unum _ n => n
  | _ => 0

/-- The constructors of `Value` with one parameter (Value.h 28-37). -/
def ctors : List Par := [.bool, .cstr, .str, .int, .s256, .obj, .arr, .val, .valMove]

/-- What the chosen constructor makes (Value.h 28, Value.cpp 19-78). Simplified: copies of elements and member values are taken as they are. -/
def construct (a : Arg) : Par → Res Value
  | .bool => .ok (.bool (asBool a))
  | .cstr => do let s ← asStr a; .ok (.str s)
  | .str => do let s ← asStr a; .ok (.str s)
  | .int => do let z ← asInt a; .ok (.int z)
  | .s256 => .ok (.int (asNum a))
  | .obj => match a with | .obj m => .ok (.obj (SMap.copy m)) | _ => .ub .badUnion
  | .arr => match a with | .arr vs => .ok (.arr vs) | _ => .ub .badUnion
  | .val => match a with | .val (.obj m) _ => .ok (.obj (SMap.copy m)) | .val v _ => .ok v | _ => .ub .badUnion
  | .valMove => match a with | .val v _ => .ok v | _ => .ub .badUnion

/-- `Value(x)`; `none` if it does not compile. Also the element made by `emplace_back(x)` on an `Array`. -/
def make (a : Arg) : Option (Res Value) := (resolve ctors a).map (construct a)

/-- `v[x]` on a `const Value` (Value.h 62-63, Value.cpp 198-212). -/
def subscript (v : Value) (a : Arg) : Option (Res Value) :=
  (resolve [.str, .int] a).map fun
    | .str => do let k ← asStr a; Value.index v k
    | _ => do let i ← asInt a; Value.indexInt v i

/-- `x[i]` on an `Array`: the only one is `operator[](int)` (Array.h 29), which hides those of `Vector`. -/
def arraySub (vs : List Value) (a : Arg) : Option (Res Value) :=
  (resolve [.int] a).map fun _ => do let i ← asInt a; Value.indexInt (.arr vs) i

/-- `v.at(i)` on a `Vector` (bits/Vector.tcc 172-188): the integer is converted to `size_t`. -/
def vectorAt {α : Type} (v : Vec α) (z : Int) : Res (Vec α × Ret α) := Vec.at_ v (z % 18446744073709551616).toNat

end Eni.Cxx
