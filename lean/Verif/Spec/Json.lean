import Verif.Model.JsonValue
import Verif.Spec.FMap
import Mathlib.Data.List.Dedup
/-!
# Specification: the JSON subset of ENI

JSON values as a mathematical object, the texts that denote them (an inductive grammar that knows nothing of the parser), and what it
means for a `json::Value` to show a given JSON value to its user.
-/
namespace Eni.Spec

/-- A JSON value. An object is its member list as written, duplicates included. -/
inductive JV where
  | int (z : Int)
  | bool (b : Bool)
  | str (s : Bytes)
  | arr (js : List JV)
  | obj (ms : List (Bytes × JV))

/-- White space between tokens: space, tab, line feed, carriage return. -/
def WS (w : Bytes) : Prop := ∀ c ∈ w, c = 32 ∨ c = 9 ∨ c = 10 ∨ c = 13

/-- The byte is one of `0`..`9`. -/
def Digit (c : UInt8) : Prop := 48 ≤ c.toNat ∧ c.toNat ≤ 57

/-- The number a digit sequence denotes. -/
def decVal (ds : Bytes) : Nat := ds.foldl (fun a c => a * 10 + (c.toNat - 48)) 0

/-- Decimal numerals without superfluous leading zeros. -/
def NatText (t : Bytes) (n : Nat) : Prop :=
  t ≠ [] ∧ (∀ c ∈ t, Digit c) ∧ (t.head? = some 48 → t = [48]) ∧ n = decVal t

/-- Integer texts: a numeral, or `-` and a numeral. -/
inductive IntText : Bytes → Int → Prop
  | nonneg {t n} : NatText t n → IntText t n
  | neg {t n} : NatText t n → IntText (45 :: t) (-(n : Int))

/-- Reduction to 256 bits of magnitude with a separate sign. -/
def wrap256 (z : Int) : Int := z.sign * ((z.natAbs % 2 ^ 256 : Nat) : Int)

/-- What the one-letter escapes stand for. -/
def escOf (c : UInt8) : Option UInt8 :=
  [(34, 34), (92, 92), (47, 47), (98, 8), (102, 12), (110, 10), (114, 13), (116, 9)].lookup c

/-- Value of a hexadecimal digit. -/
def hexOf (c : UInt8) : Option Nat :=
  if 48 ≤ c.toNat ∧ c.toNat ≤ 57 then some (c.toNat - 48)
  else if 65 ≤ c.toNat ∧ c.toNat ≤ 70 then some (c.toNat - 65 + 10)
  else if 97 ≤ c.toNat ∧ c.toNat ≤ 102 then some (c.toNat - 97 + 10)
  else none

/-- `StrBody b s`: the text `b` between the quotes denotes the bytes `s`. Any byte other than `"` and `\` stands for itself (control
characters included); `\uXXXX` stands for the low byte of XXXX (see C35). -/
inductive StrBody : Bytes → Bytes → Prop
  | nil : StrBody [] []
  | raw {c b s} : c ≠ 34 → c ≠ 92 → StrBody b s → StrBody (c :: b) (c :: s)
  | esc {c x b s} : escOf c = some x → StrBody b s → StrBody (92 :: c :: b) (x :: s)
  | uni {h1 h2 h3 h4 : UInt8} {n1 n2 n3 n4 : Nat} {b s} : hexOf h1 = some n1 → hexOf h2 = some n2 → hexOf h3 = some n3 →
      hexOf h4 = some n4 → StrBody b s →
      StrBody (92 :: 117 :: h1 :: h2 :: h3 :: h4 :: b) ((n1 * 4096 + n2 * 256 + n3 * 16 + n4).toUInt8 :: s)

mutual
/-- `JText t j`: the text `t` (no surrounding white space) denotes the value `j`. -/
inductive JText : Bytes → JV → Prop
  | true_ : JText [116, 114, 117, 101] (.bool true)
  | false_ : JText [102, 97, 108, 115, 101] (.bool false)
  | int {t z} : IntText t z → JText t (.int (wrap256 z))
  | str {b s} : StrBody b s → JText (34 :: (b ++ [34])) (.str s)
  | arrNil {w} : WS w → JText (91 :: (w ++ [93])) (.arr [])
  | arr {t js} : Elems t js → JText (91 :: (t ++ [93])) (.arr js)
  | objNil {w} : WS w → JText (123 :: (w ++ [125])) (.obj [])
  | obj {t ms} : Members t ms → JText (123 :: (t ++ [125])) (.obj ms)
/-- One or more values separated by commas. -/
inductive Elems : Bytes → List JV → Prop
  | one {w t w' j} : WS w → JText t j → WS w' → Elems (w ++ (t ++ w')) [j]
  | cons {w t w' j r js} : WS w → JText t j → WS w' → Elems r js → Elems (w ++ (t ++ (w' ++ 44 :: r))) (j :: js)
/-- One or more `"key" : value` separated by commas. -/
inductive Members : Bytes → List (Bytes × JV) → Prop
  | one {w b k w1 w2 t w3 j} : WS w → StrBody b k → WS w1 → WS w2 → JText t j → WS w3 →
      Members (w ++ 34 :: (b ++ 34 :: (w1 ++ 58 :: (w2 ++ (t ++ w3))))) [(k, j)]
  | cons {w b k w1 w2 t w3 j r ms} : WS w → StrBody b k → WS w1 → WS w2 → JText t j → WS w3 → Members r ms →
      Members (w ++ 34 :: (b ++ 34 :: (w1 ++ 58 :: (w2 ++ (t ++ (w3 ++ 44 :: r)))))) ((k, j) :: ms)
end

/-- The value of the last member called `k`. -/
def lastMember (ms : List (Bytes × JV)) (k : Bytes) : Option JV := FMap.lookup ms.reverse k

/-- `Shows v j`: to its user the `json::Value` `v` is the JSON value `j`: elements by index, members by lookup, sizes, and iteration over
an object meets every key exactly once. -/
inductive Shows : Value → JV → Prop
  | int {z} : Shows (.int z) (.int z)
  | bool {b} : Shows (.bool b) (.bool b)
  | str {s} : Shows (.str s) (.str s)
  | arr {vs js} : vs.length = js.length →
      (∀ (i : Nat) v j, vs[i]? = some v → js[i]? = some j → Shows v j) → Shows (.arr vs) (.arr js)
  | obj {m ms} : SMap.size m = (ms.map Prod.fst).dedup.length →
      ((SMap.bindings m).map Prod.fst).Perm (ms.map Prod.fst).dedup →
      (∀ k v, (k, v) ∈ SMap.bindings m → SMap.find m k = .ok (some v)) →
      (∀ k, lastMember ms k = none → SMap.find m k = .ok none) →
      (∀ k j, lastMember ms k = some j → ∃ v, SMap.find m k = .ok (some v)) →
      (∀ k j v, lastMember ms k = some j → SMap.find m k = .ok (some v) → Shows v j) → Shows (.obj m) (.obj ms)

/-- Every key in the value, at any depth, has at most 65535 bytes. -/
inductive ShortKeys : JV → Prop
  | int {z} : ShortKeys (.int z)
  | bool {b} : ShortKeys (.bool b)
  | str {s} : ShortKeys (.str s)
  | arr {js} : (∀ j ∈ js, ShortKeys j) → ShortKeys (.arr js)
  | obj {ms} : (∀ k j, (k, j) ∈ ms → k.length < 65536) → (∀ k j, (k, j) ∈ ms → ShortKeys j) → ShortKeys (.obj ms)

/-- The value contains no object. -/
inductive ObjFree : JV → Prop
  | int {z} : ObjFree (.int z)
  | bool {b} : ObjFree (.bool b)
  | str {s} : ObjFree (.str s)
  | arr {js} : (∀ j ∈ js, ObjFree j) → ObjFree (.arr js)

/-- No object in the value has a member. -/
inductive NoMembers : JV → Prop
  | int {z} : NoMembers (.int z)
  | bool {b} : NoMembers (.bool b)
  | str {s} : NoMembers (.str s)
  | arr {js} : (∀ j ∈ js, NoMembers j) → NoMembers (.arr js)
  | obj : NoMembers (.obj [])

/-- Every integer outside of objects is below 2^256 in magnitude. -/
inductive InRange : JV → Prop
  | int {z : Int} : z.natAbs < 2 ^ 256 → InRange (.int z)
  | bool {b} : InRange (.bool b)
  | str {s} : InRange (.str s)
  | arr {js} : (∀ j ∈ js, InRange j) → InRange (.arr js)
  | obj {ms} : InRange (.obj ms)

/-- The value contains no boolean. -/
inductive BoolFree : JV → Prop
  | int {z} : BoolFree (.int z)
  | str {s} : BoolFree (.str s)
  | arr {js} : (∀ j ∈ js, BoolFree j) → BoolFree (.arr js)
  | obj {ms} : (∀ k j, (k, j) ∈ ms → BoolFree j) → BoolFree (.obj ms)

/-- `r` does not begin with a digit, so that it cannot extend a number. -/
def NoDigit (r : Bytes) : Prop := ∀ c, r.head? = some c → ¬ Digit c

/-- There is no undefined value in `v`, at any depth. -/
inductive NoUndef : Value → Prop
  | int {z} : NoUndef (.int z)
  | bool {b} : NoUndef (.bool b)
  | str {s} : NoUndef (.str s)
  | arr {vs} : (∀ v ∈ vs, NoUndef v) → NoUndef (.arr vs)
  | obj {m} : (∀ e ∈ m.entries, NoUndef e.val) → NoUndef (.obj m)

end Eni.Spec
