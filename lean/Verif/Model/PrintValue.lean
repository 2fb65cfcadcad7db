/-!
# printValue: the bytes of the union as text

Model/JsonOwner keeps the contents of `union Holder` abstract. Here they are the eight bytes of the union as one number, the first byte the
lowest (64-bit, little endian). `printValue` reads the member `pointer` whatever was stored last; C++ leaves that undefined for another member, gcc
defines it as these bytes. Only variables are shown, without destruction: what the pointers lead to plays no role for the text.
-/
namespace Eni.Holder

/-- `enum Type` (Type.h 12-19) -/
inductive Kind
  | int | bool | str | obj | arr | undef
  deriving DecidableEq

/-- The numbers of the enumerators (Type.h 12-19), which are what `os << m_Type` prints. -/
def Kind.code : Kind → Nat
  | .int => 0 | .bool => 1 | .str => 2 | .obj => 3 | .arr => 4 | .undef => 5

/-- The kinds for which the union holds a pointer. -/
def Kind.isPtr : Kind → Bool
  | .bool | .undef => false
  | _ => true

/-- A value: `m_Type` (Notation.h 44) and the bytes of `m_Value` (Value.h 64-82). -/
structure Val where
  kind : Kind
  word : Nat
  deriving DecidableEq

/-- `m_Value.bool_p = b`: one byte is written, the others stay. -/
def setBool (w : Nat) (b : Bool) : Nat := w / 256 * 256 + b.toNat

/-- `m_Value.bool_p` -/
def getBool (w : Nat) : Bool := w % 256 != 0

/-- A hexadecimal digit. -/
def hexChar (d : Nat) : Char := if d < 10 then Char.ofNat (48 + d) else Char.ofNat (87 + d)

/-- Hexadecimal digits of a number, the lowest first. -/
def hexRev (n : Nat) : List Char := if h : n < 16 then [hexChar n] else hexChar (n % 16) :: hexRev (n / 16)

/-- `os << pointer` of libstdc++: hexadecimal with `0x`, which is left out for the null pointer. -/
def ptrText (w : Nat) : List Char := if w = 0 then ['0'] else '0' :: 'x' :: (hexRev w).reverse

/-- `printValue` (Value.cpp 163-166) -/
def text (v : Val) : List Char := '(' :: Char.ofNat (48 + v.kind.code) :: ',' :: ptrText v.word ++ [')', '\n']

/-- The `switch` on the type of the source (Value.cpp 21-39, 172-190) for a union with the bytes `w`; `a` is what `new` returns. -/
def store (w : Nat) (src : Val) (a : Nat) : Nat :=
  match src.kind with
  | .bool => setBool w (getBool src.word)
  | .undef => w
  | _ => a

inductive Stmt
  | undef                      -- Value.h 26
  | bool (b : Bool)            -- Value.h 28
  | new (k : Kind)             -- Value.cpp 47-75: from a string, integer, object or array
  | copy (i : Nat)             -- Value.cpp 19-40
  | move (i : Nat)             -- Value.cpp 42-45
  | assign (i j : Nat)         -- Value.cpp 169-192: variable i = variable j
  | delegate (i : Nat) (k : Kind)  -- Value.cpp 97-122

/-- One statement; `a` is the address that `new` returns, or the address of the object that is delegated to. `none`: there is no such variable or
constructor, or `delegate` throws. `Holder()` sets all bytes to zero (Value.h 74). -/
def step (vs : List Val) (a : Nat) : Stmt → Option (List Val)
  | .undef => some (vs ++ [⟨.undef, 0⟩])
  | .bool b => some (vs ++ [⟨.bool, setBool 0 b⟩])
  | .new k => if k.isPtr then some (vs ++ [⟨k, a⟩]) else none
  | .copy i => vs[i]?.map fun v => vs ++ [⟨v.kind, store 0 v a⟩]
  | .move i => vs[i]?.map fun v => vs.set i ⟨.undef, v.word⟩ ++ [v]
  | .assign i j =>
    match vs[i]?, vs[j]? with
    | some v, some s => some (vs.set i ⟨s.kind, store v.word s a⟩)
    | _, _ => none
  | .delegate i k =>
    match vs[i]? with
    | some v => if v.kind = .undef ∧ (k = .int ∨ k = .obj ∨ k = .arr) then some (vs.set i ⟨k, a⟩) else none
    | none => none

/-- A program; the addresses are those of its statements in turn. -/
def run : List Val → List Stmt → List Nat → Option (List Val)
  | vs, [], [] => some vs
  | vs, s :: p, a :: as =>
    match step vs a s with
    | some vs => run vs p as
    | none => none
  | _, _, _ => none

end Eni.Holder
